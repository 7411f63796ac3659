import Verif.Props.Balance

/-!
# C125 and C126: the balance is not exact at the samples for fields that vary faster

Two waves on five samples.
-/

namespace Verif.Balance

open Verif Verif.Fourier Verif.Backend Verif.Continuous Verif.Spec.Continuous Verif.Spec.Balance Complex
open Verif.Solver (State Const Medium Field Represents Uniform getE getB getH getD getJ getS getDivS getStress getForce backendK angularFrequency vacuum vacuum_uniform prepare represents_prepare)
open Verif.Spec.Solver (WaveEquation)

local notation "conj" => starRingEnd ℂ

/-- Five samples with a distance of 1. -/
noncomputable def pentaGrid : Grid.Obj 1 ℝ where
  shape := fun _ => 5
  step := fun _ => 1
  center := fun _ => 0
  dt := .float
  flat := fun _ => false
  originAtCenter := fun _ => true
  centerAtIndex := fun _ => true
  multidimensional := false
  stepShort := false

theorem penta_step : ∀ a, pentaGrid.step a ≠ 0 := fun _ => one_ne_zero

/-- The position of a sample. -/
noncomputable def position (x : Idx pentaGrid.shape) : Point := fun c => if c = 0 then ((x 0).val : ℝ) - 2 else 0

theorem penta_sample {x : Idx pentaGrid.shape} {r : Point} (h : AtSample pentaGrid x r) : r 0 = ((x 0).val : ℝ) - 2 := by
  have h1 := h 0 Nat.one_pos
  have h2 : (List.range (pentaGrid.shape 0))[(x 0).val]? = some (x 0).val := List.getElem?_range (x 0).isLt
  rw [Grid.coords_eq, List.getElem?_map] at h1
  change Option.map _ ((List.range (pentaGrid.shape 0))[(x 0).val]?) = _ at h1
  rw [h2, Option.map_some] at h1
  rw [← Option.some.inj h1]
  simp [Spec.Grid.firstSample, Spec.Grid.centerPos, pentaGrid]
  ring

theorem position_atSample (x : Idx pentaGrid.shape) : AtSample pentaGrid x (position x) := by
  obtain ⟨r, hr⟩ := exists_atSample (by norm_num) pentaGrid x
  intro c hc
  have h0 : c = 0 := Fin.ext (by omega)
  subst h0
  rw [hr 0 hc, penta_sample hr]
  simp [position]

/-- The lowest wavenumber. -/
noncomputable def lowest : ℝ := 2 * Real.pi / 5

/-- The waves with a multiple of the lowest wavenumber along the first axis. -/
noncomputable def W (j : ℤ) : Point → ℂ := wave fun c => if c = 0 then lowest * j else 0

theorem W_eq (j : ℤ) (r : Point) : W j r = exp (I * ((lowest * j * r 0 : ℝ) : ℂ)) := by
  unfold W wave
  simp [Fin.sum_univ_three]

theorem W_mem {j : ℤ} (h1 : -2 ≤ j) (h2 : j ≤ 2) : W j ∈ BandLimited pentaGrid.shape pentaGrid.step := by
  refine Submodule.subset_span ⟨_, fun c => ⟨fun hc => ?_, fun hc => ?_⟩, rfl⟩
  · have h0 : c = 0 := Fin.ext (by omega)
    subst h0
    refine ⟨j, ?_, ?_, ?_⟩
    · simp only [pentaGrid]; push_cast; omega
    · simp only [pentaGrid]; push_cast; omega
    · simp only [pentaGrid, if_true, lowest]; push_cast; ring
  · have : c ≠ 0 := by rintro rfl; simp at hc
    rw [if_neg this]

theorem W_smooth (j : ℤ) : Smooth (W j) := fun r a => (wave_hasDerivAt _ r a _).differentiableAt

theorem pd_W (j : ℤ) (a : Fin 3) (r : Point) : partialDeriv a (W j) r = if a = 0 then I * (lowest * j : ℝ) * W j r else 0 := by
  have h := wave_hasDerivAt (fun c : Fin 3 => if c = 0 then lowest * j else 0) r a (r a)
  rw [Function.update_eq_self] at h
  have h2 : partialDeriv a (W j) r = _ := partialDeriv_of r a h
  rw [h2]
  split_ifs
  · rfl
  · simp

theorem W_mul_conj (i j : ℤ) (r : Point) : W i r * conj (W j r) = W (i - j) r := by
  unfold W
  rw [wave_mul_conj]
  congr 1
  funext c
  simp only [Pi.sub_apply]
  split_ifs
  · push_cast; ring
  · simp

theorem W_conj (j : ℤ) (r : Point) : conj (W j r) = W (-j) r := by
  unfold W
  rw [wave_conj]
  congr 1
  funext c
  simp only [Pi.neg_apply]
  split_ifs
  · push_cast; ring
  · simp

/-- The wave with three periods on the grid is the same at the samples as one with two periods. -/
theorem W_alias {x : Idx pentaGrid.shape} {r : Point} (h : AtSample pentaGrid x r) : W 3 r = conj (W 2 r) := by
  rw [W_conj, W_eq, W_eq, penta_sample h]
  rw [show I * ((lowest * (3 : ℤ) * (((x 0).val : ℝ) - 2) : ℝ) : ℂ) = I * ((lowest * (-2 : ℤ) * (((x 0).val : ℝ) - 2) : ℝ) : ℂ) + (((x 0).val : ℤ) - 2 : ℤ) * (2 * Real.pi * I) by
    unfold lowest; push_cast; ring, exp_add, exp_int_mul_two_pi_mul_I, mul_one]

/-- The divergence as the library calculates it, of a flow that varies with three periods on the grid. -/
theorem penta_divergence (a b : ℝ) {G : Fin 3 → Idx pentaGrid.shape → ℂ} (h0 : ∀ x, G 0 x = ((a + b * (W 3 (position x)).re : ℝ) : ℂ)) (h1 : ∀ x, G 1 x = 0) (h2 : ∀ x, G 2 x = 0)
    (x : Idx pentaGrid.shape) : Spec.Solver.divergence (kOf pentaGrid) G x = ((-2 * lowest * b * (W 2 (position x)).im : ℝ) : ℂ) := by
  have hre : ∀ r, ((W 2 r).re : ℂ) = (1 / 2 : ℂ) * (W 2 r + W (-2) r) := fun r => by rw [re_eq_add_conj, W_conj]; ring
  let F : Fin 3 → Point → ℂ := ![fun r => (a : ℂ) * W 0 r + (b : ℂ) * ((1 / 2 : ℂ) * (W 2 r + W (-2) r)), fun _ => 0, fun _ => 0]
  have hpos : ∀ {x r}, AtSample pentaGrid x r → W 3 r = W 3 (position x) ∧ W 2 r = W 2 (position x) := fun {x r} hr => by
    constructor <;> rw [W_eq, W_eq, penta_sample hr, penta_sample (position_atSample x)]
  have hF : ∀ c, Interpolates pentaGrid (F c) (G c) := by
    intro c
    match c with
    | 0 =>
      refine ⟨Submodule.add_mem _ (Submodule.smul_mem _ _ (W_mem (by norm_num) (by norm_num)))
        (Submodule.smul_mem _ _ (Submodule.smul_mem _ _ (Submodule.add_mem _ (W_mem (by norm_num) (by norm_num)) (W_mem (by norm_num) (by norm_num))))), fun x r hr => ?_⟩
      rw [h0 x, ← (hpos hr).1, W_alias hr, conj_re]
      push_cast
      rw [hre]
      show (a : ℂ) * W 0 r + _ = _
      rw [W_eq 0]
      simp
    | 1 => exact ⟨Submodule.zero_mem _, fun x r _ => (h1 x).symm⟩
    | 2 => exact ⟨Submodule.zero_mem _, fun x r _ => (h2 x).symm⟩
  have h3 := (C123_divergence (by norm_num) penta_step hF).2 x (position x) (position_atSample x)
  rw [← h3]
  have hz : ∀ c r, partialDeriv c (fun _ : Point => (0 : ℂ)) r = 0 := fun c r => deriv_const _ _
  have hS : Smooth fun r => (1 / 2 : ℂ) * (W 2 r + W (-2) r) := ((W_smooth 2).add (W_smooth (-2))).const_mul _
  unfold Spec.Continuous.divergence
  rw [Fin.sum_univ_three]
  show partialDeriv 0 (fun r => (a : ℂ) * W 0 r + (b : ℂ) * ((1 / 2 : ℂ) * (W 2 r + W (-2) r))) (position x) + partialDeriv 1 (fun _ => 0) (position x) + partialDeriv 2 (fun _ => 0) (position x) = _
  rw [hz, hz, pd_add ((W_smooth 0).const_mul _) (hS.const_mul _), pd_const_mul _ (W_smooth 0), pd_const_mul _ hS, pd_const_mul _ ((W_smooth 2).add (W_smooth (-2))),
    pd_add (W_smooth 2) (W_smooth (-2)), pd_W, pd_W, pd_W, if_pos rfl, if_pos rfl, if_pos rfl, ← W_conj]
  have him : W 2 (position x) - conj (W 2 (position x)) = 2 * (W 2 (position x)).im * I := by
    rw [sub_conj]
    push_cast
    ring
  push_cast
  linear_combination (b * I * lowest) * him + 2 * lowest * b * (W 2 (position x)).im * I_sq

/-- The true divergence of that flow. -/
theorem true_divergence (a b : ℝ) (r : Point) : partialDeriv 0 (fun r => ((a + b * (W 3 r).re : ℝ) : ℂ)) r = ((-3 * lowest * b * (W 3 r).im : ℝ) : ℂ) := by
  have e : (fun r => ((a + b * (W 3 r).re : ℝ) : ℂ)) = fun r => (a : ℂ) * W 0 r + (b : ℂ) * ((W 3 r).re : ℂ) := by
    funext r
    rw [W_eq 0]
    simp
  rw [e, pd_add ((W_smooth 0).const_mul _) ((W_smooth 3).re.const_mul _), pd_const_mul _ (W_smooth 0), pd_const_mul _ (W_smooth 3).re, pd_re (W_smooth 3), pd_W, pd_W, if_pos rfl, if_pos rfl]
  simp only [mul_re, mul_im, I_re, I_im, ofReal_re, ofReal_im]
  push_cast
  ring

theorem exists_im : ∃ x : Idx pentaGrid.shape, (W 2 (position x)).im ≠ 0 := by
  refine ⟨fun _ => ⟨3, by simp [pentaGrid]⟩, ?_⟩
  rw [W_eq, mul_comm, exp_ofReal_mul_I_im]
  have : lowest * (2 : ℤ) * position (fun _ => ⟨3, by simp [pentaGrid]⟩) 0 = 4 * Real.pi / 5 := by
    unfold lowest position
    simp
    ring
  rw [this]
  exact (Real.sin_pos_of_pos_of_lt_pi (by positivity) (by linarith [Real.pi_pos])).ne'

/-- Two waves that are polarized along the second axis. -/
noncomputable def twoWaves : Fin 3 → Point → ℂ := fun c r => if c = 1 then W 2 r + W (-1) r else 0

theorem twoWaves_mem (c : Fin 3) : twoWaves c ∈ BandLimited pentaGrid.shape pentaGrid.step := by
  unfold twoWaves
  split_ifs
  · exact Submodule.add_mem _ (W_mem (by norm_num) (by norm_num)) (W_mem (by norm_num) (by norm_num))
  · exact Submodule.zero_mem _

/-- A state in vacuum with these waves as its field, for any source and bias. -/
noncomputable def twoWavesState (alpha : ℂ) (S : Field 3 pentaGrid.shape) : State 3 pentaGrid.shape := prepare (vacuum pentaGrid.shape) false alpha 1 S fun c x => twoWaves c (position x)

section
variable {alpha : ℂ} (hα : alpha.im ≠ 0) (S : Field 3 pentaGrid.shape) {co : Const} (hc : co.c ≠ 0) (hmu0 : co.mu0 ≠ 0) (i0 : Fin 3) (x0 : Idx pentaGrid.shape)

theorem twoWaves_interpolates (c : Fin 3) : Interpolates pentaGrid (twoWaves c) (getE 1 (twoWavesState alpha S) c) := by
  refine ⟨twoWaves_mem c, fun x r hr => ?_⟩
  unfold twoWavesState
  rw [Solver.getE_prepare]
  have h : ∀ j, W j r = W j (position x) := fun j => by rw [W_eq, W_eq, penta_sample hr, penta_sample (position_atSample x)]
  simp [twoWaves, h]

include hα hc hmu0 in
theorem twoWaves_H {H : Fin 3 → Point → ℂ} (hH : ∀ c, Interpolates pentaGrid (H c) (getH co 1 (backendK pentaGrid 1) i0 x0 (twoWavesState alpha S) c)) :
    H = fun c r => if c = 2 then ((lowest / (co.c * co.mu0) : ℝ) : ℂ) * (2 * W 2 r - W (-1) r) else 0 := by
  choose B hB _ using fun c => C123_interpolation (by norm_num) penta_step (getB co 1 (backendK pentaGrid 1) (twoWavesState alpha S) c)
  have eB := flux_eq (by norm_num) penta_step hc i0 x0 (twoWavesState alpha S) hH hB hmu0 (represents_prepare _ _ hα one_ne_zero _ _) (vacuum_uniform _ _) (fun _ => rfl) fun _ => rfl
  have hf := C123_faraday (by norm_num) penta_step one_ne_zero hc (twoWavesState alpha S) (twoWaves_interpolates S) hB
  have hω : co.omega 1 = co.c := by simp [Solver.Const.omega, angularFrequency]
  have hc' : (co.c : ℂ) ≠ 0 := by exact_mod_cast hc
  have hm' : (co.mu0 : ℂ) ≠ 0 := by exact_mod_cast hmu0
  have hz : ∀ c r, partialDeriv c (fun _ : Point => (0 : ℂ)) r = 0 := fun c r => deriv_const _ _
  have t0 : twoWaves 0 = fun _ => 0 := rfl
  have t1 : twoWaves 1 = fun r => W 2 r + W (-1) r := rfl
  have t2 : twoWaves 2 = fun _ => 0 := rfl
  have hp : ∀ a r, partialDeriv a (twoWaves 1) r = if a = 0 then I * (lowest : ℂ) * (2 * W 2 r - W (-1) r) else 0 := fun a r => by
    rw [t1, pd_add (W_smooth 2) (W_smooth (-1)), pd_W, pd_W]
    split_ifs
    · push_cast; ring
    · simp
  funext c r
  have h := hf c r
  rw [eB, hω] at h
  have key : ∀ z : ℂ, Spec.Continuous.curl twoWaves c r = I * z → H c r = z / (co.c * co.mu0) := fun z hz => by
    rw [hz] at h
    rw [eq_div_iff (mul_ne_zero hc' hm')]
    refine mul_left_cancel₀ I_ne_zero ?_
    linear_combination -h
  match c with
  | 0 =>
    rw [key 0 (by simp [Spec.Continuous.curl, hp, t2, hz])]
    simp
  | 1 =>
    rw [key 0 (by simp [Spec.Continuous.curl, t0, t2, hz])]
    simp
  | 2 =>
    rw [key (lowest * (2 * W 2 r - W (-1) r)) (by simp [Spec.Continuous.curl, hp, t0, hz]; ring), if_pos rfl]
    push_cast
    ring

/-- The waves with opposite numbers are conjugate. -/
theorem W_products (r : Point) : W 2 r * conj (W 2 r) = 1 ∧ W (-1) r * conj (W (-1) r) = 1 ∧ W 2 r * conj (W (-1) r) = W 3 r ∧ W (-1) r * conj (W 2 r) = conj (W 3 r) := by
  have h0 : W 0 r = 1 := by rw [W_eq]; simp
  refine ⟨?_, ?_, ?_, ?_⟩
  · rw [W_mul_conj]; exact h0
  · rw [W_mul_conj]; exact h0
  · rw [W_mul_conj]; rfl
  · rw [W_mul_conj, W_conj]; rfl

include hα hc hmu0 in
/-- **C125 (faster fields).** In vacuum, for all sources and so also for those for which the field is the solution: `divS`, multiplied by the wavenumber, is not the power that the currents deliver minus
that absorbed, at some of the samples. -/
theorem C125_violates : ∃ v, getDivS co 1 (backendK pentaGrid 1) i0 x0 (twoWavesState alpha S) = .ok v ∧ ∃ x, (1 : ℝ) * v x ≠
      (((∑ c, getJ co 1 (twoWavesState alpha S) c x * conj (getE 1 (twoWavesState alpha S) c x)).re / 2 -
        co.omega 1 / 2 * ((∑ c, getD co 1 (backendK pentaGrid 1) i0 x0 (twoWavesState alpha S) c x * conj (getE 1 (twoWavesState alpha S) c x)).im +
          (∑ c, getB co 1 (backendK pentaGrid 1) (twoWavesState alpha S) c x * conj (getH co 1 (backendK pentaGrid 1) i0 x0 (twoWavesState alpha S) c x)).im) : ℝ) : ℂ) := by
  have hE := twoWaves_interpolates (alpha := alpha) S
  choose H hH _ using fun c => C123_interpolation (by norm_num) penta_step (getH co 1 (backendK pentaGrid 1) i0 x0 (twoWavesState alpha S) c)
  choose D hD _ using fun c => C123_interpolation (by norm_num) penta_step (getD co 1 (backendK pentaGrid 1) i0 x0 (twoWavesState alpha S) c)
  choose B hB _ using fun c => C123_interpolation (by norm_num) penta_step (getB co 1 (backendK pentaGrid 1) (twoWavesState alpha S) c)
  choose j hj _ using fun c => C123_interpolation (by norm_num) penta_step (getJ co 1 (twoWavesState alpha S) c)
  obtain ⟨v, h1, h2⟩ := Solver.C45_divergence_partial pentaGrid penta_step one_ne_zero (by norm_num) co i0 x0 (twoWavesState alpha S)
  obtain ⟨x, hx⟩ := exists_im
  refine ⟨v, h1, x, fun h => hx ?_⟩
  have hr := position_atSample x
  have hpoy := C125_poynting (by norm_num) penta_step one_ne_zero hc i0 x0 (twoWavesState alpha S) hE hH hD hB hj (position x)
  unfold delivered absorbed at hpoy
  simp only [fun c => (hE c).2 x _ hr, fun c => (hH c).2 x _ hr, fun c => (hD c).2 x _ hr, fun c => (hB c).2 x _ hr, fun c => (hj c).2 x _ hr] at hpoy
  rw [← hpoy, ← h2 x] at h
  have eH := twoWaves_H hα S hc hmu0 i0 x0 hH
  have f0 : ∀ r, flow twoWaves H 0 r = lowest / (co.c * co.mu0) / 2 + lowest / (co.c * co.mu0) / 2 * (W 3 r).re := fun r => by
    unfold flow
    rw [eH]
    simp only [cross_apply, Matrix.cons_val_zero, twoWaves, if_true, if_neg (by decide : ¬ (2 : Fin 3) = 1), if_neg (by decide : ¬ (1 : Fin 3) = 2), zero_mul, sub_zero, map_mul, conj_ofReal, map_sub]
    obtain ⟨p1, p2, p3, p4⟩ := W_products r
    rw [show (W 2 r + W (-1) r) * (((lowest / (co.c * co.mu0) : ℝ) : ℂ) * (conj 2 * conj (W 2 r) - conj (W (-1) r))) = ((lowest / (co.c * co.mu0) : ℝ) : ℂ) * (1 - W 3 r + 2 * conj (W 3 r)) by
      rw [show conj 2 = 2 from Complex.conj_ofNat 2]
      linear_combination ((lowest / (co.c * co.mu0) : ℝ) : ℂ) * (2 * p1 - p2 - p3 + 2 * p4), re_ofReal_mul]
    simp
    ring
  have f1 : ∀ r, flow twoWaves H 1 r = 0 := fun r => by
    unfold flow
    rw [eH]
    simp [cross_apply, twoWaves]
  have f2 : ∀ r, flow twoWaves H 2 r = 0 := fun r => by
    unfold flow
    rw [eH]
    simp [cross_apply, twoWaves]
  have hsamp : ∀ c y, getS co 1 (backendK pentaGrid 1) i0 x0 (twoWavesState alpha S) c y = flow twoWaves H c (position y) := fun c y =>
    C125_samples i0 x0 (twoWavesState alpha S) hE hH c y _ (position_atSample y)
  rw [penta_divergence (lowest / (co.c * co.mu0) / 2) (lowest / (co.c * co.mu0) / 2) (fun y => by rw [hsamp, f0]) (fun y => by rw [hsamp, f1]; simp) (fun y => by rw [hsamp, f2]; simp)] at h
  unfold Spec.Continuous.divergence at h
  rw [Fin.sum_univ_three] at h
  dsimp only at h
  rw [show (fun r => (flow twoWaves H 0 r : ℂ)) = _ from funext fun r => by rw [f0 r], show (fun r => (flow twoWaves H 1 r : ℂ)) = fun _ => (0 : ℂ) from funext fun r => by rw [f1 r]; simp,
    show (fun r => (flow twoWaves H 2 r : ℂ)) = fun _ => (0 : ℂ) from funext fun r => by rw [f2 r]; simp, true_divergence, W_alias hr] at h
  have hz : ∀ c r, partialDeriv c (fun _ : Point => (0 : ℂ)) r = 0 := fun c r => deriv_const _ _
  rw [hz, hz, add_zero, add_zero, conj_im, ofReal_inj] at h
  have hl : 0 < lowest := by unfold lowest; positivity
  have hb : lowest / (co.c * co.mu0) / 2 ≠ 0 := div_ne_zero (div_ne_zero hl.ne' (mul_ne_zero hc hmu0)) two_ne_zero
  have : 5 * lowest * (lowest / (co.c * co.mu0) / 2) * (W 2 (position x)).im = 0 := by linear_combination -h
  exact (mul_eq_zero.1 this).resolve_left (mul_ne_zero (mul_ne_zero (by norm_num) hl.ne') hb)

include hα hmu0 in
/-- **C126 (faster fields).** In vacuum and without charges, for all sources: `f` is not the Lorentz force `Re(J × B*) / 2` on the currents at some of the samples. -/
theorem C126_violates (hco : co.c ^ 2 * co.mu0 * co.epsilon0 = 1) :
    (∀ r, Spec.Continuous.divergence twoWaves r = 0) ∧ ∃ v, getForce co 1 (backendK pentaGrid 1) i0 x0 (twoWavesState alpha S) = .ok v ∧ ∃ x, v 0 x ≠
      (crossProduct (fun c => -getJ co 1 (twoWavesState alpha S) c x - I * co.omega 1 *
          (getD co 1 (backendK pentaGrid 1) i0 x0 (twoWavesState alpha S) c x - co.epsilon0 * getE 1 (twoWavesState alpha S) c x))
        (fun c => conj (getB co 1 (backendK pentaGrid 1) (twoWavesState alpha S) c x)) 0).re / 2 := by
  have hc : co.c ≠ 0 := by rintro e; rw [e] at hco; simp at hco
  have hε : co.epsilon0 ≠ 0 := by rintro e; rw [e] at hco; simp at hco
  have hz : ∀ c r, partialDeriv c (fun _ : Point => (0 : ℂ)) r = 0 := fun c r => deriv_const _ _
  have hdivE : ∀ r, Spec.Continuous.divergence twoWaves r = 0 := fun r => by
    unfold Spec.Continuous.divergence
    rw [Fin.sum_univ_three, show twoWaves 0 = fun _ => 0 from rfl, show twoWaves 2 = fun _ => 0 from rfl, hz, hz, show twoWaves 1 = fun r => W 2 r + W (-1) r from rfl,
      pd_add (W_smooth 2) (W_smooth (-1)), pd_W, pd_W]
    simp
  have hE := twoWaves_interpolates (alpha := alpha) S
  choose H hH _ using fun c => C123_interpolation (by norm_num) penta_step (getH co 1 (backendK pentaGrid 1) i0 x0 (twoWavesState alpha S) c)
  choose D hD _ using fun c => C123_interpolation (by norm_num) penta_step (getD co 1 (backendK pentaGrid 1) i0 x0 (twoWavesState alpha S) c)
  choose B hB _ using fun c => C123_interpolation (by norm_num) penta_step (getB co 1 (backendK pentaGrid 1) (twoWavesState alpha S) c)
  choose j hj _ using fun c => C123_interpolation (by norm_num) penta_step (getJ co 1 (twoWavesState alpha S) c)
  obtain ⟨x, hx⟩ := exists_im
  refine ⟨hdivE, _, Solver.C45_force pentaGrid penta_step one_ne_zero (by norm_num) co i0 x0 (twoWavesState alpha S), x, fun h => hx ?_⟩
  have hr := position_atSample x
  have hlor := C126_lorentz (by norm_num) penta_step one_ne_zero hc i0 x0 (twoWavesState alpha S) hE hH hD hB hj hmu0 (represents_prepare _ _ hα one_ne_zero _ _) (vacuum_uniform _ _)
    (fun _ => rfl) (fun _ => rfl) 0 (position x)
  unfold lorentz at hlor
  simp only [hdivE, mul_zero, zero_mul, zero_add] at hlor
  simp only [fun c => (hE c).2 x _ hr, fun c => (hD c).2 x _ hr, fun c => (hB c).2 x _ hr, fun c => (hj c).2 x _ hr] at hlor
  have eH := twoWaves_H hα S hc hmu0 i0 x0 hH
  set A : ℝ := lowest / (co.c * co.mu0) with hA
  have f0 : ∀ r, stress co.epsilon0 co.mu0 twoWaves H 0 0 r = -(2 * co.epsilon0 + 5 * co.mu0 * A ^ 2) / 4 + (co.mu0 * A ^ 2 - co.epsilon0 / 2) * (W 3 r).re := fun r => by
    obtain ⟨p1, p2, p3, p4⟩ := W_products r
    have n1 : normSq (W 2 r + W (-1) r) = 2 + 2 * (W 3 r).re := by
      have : ((normSq (W 2 r + W (-1) r) : ℝ) : ℂ) = 2 + (W 3 r + conj (W 3 r)) := by
        rw [normSq_eq_conj_mul_self, map_add]
        linear_combination p1 + p2 + p3 + p4
      rw [add_conj] at this
      exact_mod_cast this
    have n2 : normSq ((A : ℂ) * (2 * W 2 r - W (-1) r)) = A ^ 2 * (5 - 4 * (W 3 r).re) := by
      have : ((normSq (2 * W 2 r - W (-1) r) : ℝ) : ℂ) = 5 - 2 * (W 3 r + conj (W 3 r)) := by
        rw [normSq_eq_conj_mul_self, map_sub, map_mul, show conj 2 = 2 from Complex.conj_ofNat 2]
        linear_combination 4 * p1 + p2 - 2 * p3 - 2 * p4
      rw [add_conj] at this
      have h2 : normSq (2 * W 2 r - W (-1) r) = 5 - 2 * (2 * (W 3 r).re) := by exact_mod_cast this
      rw [normSq_mul, normSq_ofReal, h2]
      ring
    unfold stress
    rw [eH]
    simp only [twoWaves, Fin.sum_univ_three, if_true, if_neg (by decide : ¬ (0 : Fin 3) = 1), if_neg (by decide : ¬ (0 : Fin 3) = 2), if_neg (by decide : ¬ (1 : Fin 3) = 2),
      if_neg (by decide : ¬ (2 : Fin 3) = 1), normSq_zero, n1, n2, zero_mul, zero_re]
    ring
  have f1 : ∀ r, stress co.epsilon0 co.mu0 twoWaves H 1 0 r = 0 := fun r => by
    unfold stress
    rw [eH]
    simp [twoWaves]
  have f2 : ∀ r, stress co.epsilon0 co.mu0 twoWaves H 2 0 r = 0 := fun r => by
    unfold stress
    rw [eH]
    simp [twoWaves]
  have hsamp : ∀ c y, getStress co 1 (backendK pentaGrid 1) i0 x0 (twoWavesState alpha S) c 0 y = stress co.epsilon0 co.mu0 twoWaves H c 0 (position y) := fun c y =>
    C126_samples i0 x0 (twoWavesState alpha S) hE hH c 0 y _ (position_atSample y)
  rw [penta_divergence (-(2 * co.epsilon0 + 5 * co.mu0 * A ^ 2) / 4) (co.mu0 * A ^ 2 - co.epsilon0 / 2) (fun y => by rw [hsamp, f0]) (fun y => by rw [hsamp, f1]; simp)
    (fun y => by rw [hsamp, f2]; simp), ofReal_re] at h
  have h' := congrArg (fun t : ℝ => (t : ℂ)) h
  rw [← hlor] at h'
  unfold Spec.Continuous.divergence at h'
  rw [Fin.sum_univ_three] at h'
  dsimp only at h'
  rw [show (fun r => (stress co.epsilon0 co.mu0 twoWaves H 0 0 r : ℂ)) = _ from funext fun r => by rw [f0 r],
    show (fun r => (stress co.epsilon0 co.mu0 twoWaves H 1 0 r : ℂ)) = fun _ => (0 : ℂ) from funext fun r => by rw [f1 r]; simp,
    show (fun r => (stress co.epsilon0 co.mu0 twoWaves H 2 0 r : ℂ)) = fun _ => (0 : ℂ) from funext fun r => by rw [f2 r]; simp, true_divergence, W_alias hr,
    hz, hz, add_zero, add_zero, conj_im, ofReal_inj] at h'
  have hl : 6 / 5 < lowest := by unfold lowest; linarith [Real.pi_gt_three]
  have hb : co.mu0 * A ^ 2 - co.epsilon0 / 2 ≠ 0 := by
    have e : co.mu0 * A ^ 2 = lowest ^ 2 * co.epsilon0 := by
      rw [hA]
      field_simp
      linear_combination -hco
    rw [e]
    have h2 : lowest ^ 2 - 1 / 2 ≠ 0 := by nlinarith
    have : lowest ^ 2 * co.epsilon0 - co.epsilon0 / 2 = (lowest ^ 2 - 1 / 2) * co.epsilon0 := by ring
    rw [this]
    exact mul_ne_zero h2 hε
  have : 5 * lowest * (co.mu0 * A ^ 2 - co.epsilon0 / 2) * (W 2 (position x)).im = 0 := by linear_combination -h'
  exact (mul_eq_zero.1 this).resolve_left (mul_ne_zero (mul_ne_zero (by norm_num) (by linarith)) hb)

end

/-! ### Examples -/

theorem W_half {j : ℤ} (h1 : -1 ≤ j) (h2 : j ≤ 1) : W j ∈ HalfBand pentaGrid.shape pentaGrid.step := by
  refine Submodule.subset_span ⟨_, fun c => ⟨fun hc => ?_, fun hc => ?_⟩, rfl⟩
  · have h0 : c = 0 := Fin.ext (by omega)
    subst h0
    refine ⟨j, ?_, ?_, ?_⟩
    · simp only [pentaGrid]; push_cast; omega
    · simp only [pentaGrid]; push_cast; omega
    · simp only [pentaGrid, if_true, lowest]; push_cast; ring
  · have : c ≠ 0 := by rintro rfl; simp at hc
    rw [if_neg this]

/-- A wave along the first axis and one with the opposite direction and another polarization. -/
noncomputable def slowWaves : Fin 3 → Point → ℂ := ![fun _ => 0, W 1, W (-1)]

theorem slowWaves_half (c : Fin 3) : slowWaves c ∈ HalfBand pentaGrid.shape pentaGrid.step := by
  match c with
  | 0 => exact Submodule.zero_mem _
  | 1 => exact W_half (by norm_num) (by norm_num)
  | 2 => exact W_half (by norm_num) (by norm_num)

noncomputable def slowState (S : Field 3 pentaGrid.shape) : State 3 pentaGrid.shape := prepare (vacuum pentaGrid.shape) false I 1 S fun c x => slowWaves c (position x)

theorem slowWaves_interpolates (S : Field 3 pentaGrid.shape) (c : Fin 3) : Interpolates pentaGrid (slowWaves c) (getE 1 (slowState S) c) := by
  refine ⟨halfBand_le _ _ (slowWaves_half c), fun x r hr => ?_⟩
  unfold slowState
  rw [Solver.getE_prepare]
  have h : ∀ j, W j r = W j (position x) := fun j => by rw [W_eq, W_eq, penta_sample hr, penta_sample (position_atSample x)]
  match c with
  | 0 => simp [slowWaves]
  | 1 => simp [slowWaves, h]
  | 2 => simp [slowWaves, h]

/-- **C125, C126** for these waves and all sources. -/
example (S : Field 3 pentaGrid.shape) {co : Const} (hc : co.c ≠ 0) (hmu0 : co.mu0 ≠ 0) (x0 : Idx pentaGrid.shape) :
    ∃ v, getForce co 1 (backendK pentaGrid 1) 0 x0 (slowState S) = .ok v ∧ ∀ c x, v c x =
      (co.epsilon0 * Spec.Solver.divergence (kOf pentaGrid) (getE 1 (slowState S)) x * conj (getE 1 (slowState S) c x) +
        crossProduct (fun c => -getJ co 1 (slowState S) c x - I * co.omega 1 * (getD co 1 (backendK pentaGrid 1) 0 x0 (slowState S) c x - co.epsilon0 * getE 1 (slowState S) c x))
          (fun c => conj (getB co 1 (backendK pentaGrid 1) (slowState S) c x)) c).re / 2 := by
  choose H hH _ using fun c => C123_interpolation (by norm_num) penta_step (getH co 1 (backendK pentaGrid 1) 0 x0 (slowState S) c)
  exact (C126_balance_partial (by norm_num) penta_step one_ne_zero hc 0 x0 (slowState S) (slowWaves_interpolates S) hH hmu0
    (represents_prepare _ _ (by simp) one_ne_zero _ _) (vacuum_uniform _ _) (fun _ => rfl) (fun _ => rfl) slowWaves_half).2

/-- **C125 (materials)**: vacuum and the source for which the waves are the solution. -/
example {co : Const} (hco : co.c ^ 2 * co.mu0 * co.epsilon0 = 1) (hc : 0 < co.c) (hε : 0 ≤ co.epsilon0) (hμ : 0 ≤ co.mu0) (x0 x : Idx pentaGrid.shape) :
    ∃ S : Field 3 pentaGrid.shape, ∃ H j : Fin 3 → Point → ℂ, ∃ p : ℝ, Spec.Continuous.divergence (fun c r => (flow slowWaves H c r : ℂ)) (position x) = (p : ℂ) ∧ p ≤ delivered slowWaves j (position x) := by
  let E : Field 3 pentaGrid.shape := fun c x => slowWaves c (position x)
  let S : Field 3 pentaGrid.shape := fun c x => Spec.Solver.curl (kOf pentaGrid) (Spec.Solver.act (fun x => ((vacuum pentaGrid.shape).mu x)⁻¹) (Spec.Solver.curl (kOf pentaGrid) E)) c x -
    ((1 : ℝ) : ℂ) ^ 2 * Spec.Solver.act (vacuum pentaGrid.shape).epsilon E c x
  choose H hH _ using fun c => C123_interpolation (by norm_num) penta_step (getH co 1 (backendK pentaGrid 1) 0 x0 (slowState S) c)
  choose j hj _ using fun c => C123_interpolation (by norm_num) penta_step (getJ co 1 (slowState S) c)
  have hw : WaveEquation (kOf pentaGrid) 1 (vacuum pentaGrid.shape).epsilon (vacuum pentaGrid.shape).mu S (getE 1 (slowState S)) := by
    have e : getE 1 (slowState S) = E := by
      funext c x
      unfold slowState
      rw [Solver.getE_prepare]
      simp [E]
    rw [e]
    exact fun c x => rfl
  refine ⟨S, H, j, C125_passive (by norm_num) penta_step one_ne_zero hc.ne' 0 x0 (slowState S) (slowWaves_interpolates S) hH hj ?_ hco hε hμ
    (represents_prepare _ _ (by simp) one_ne_zero _ _) (vacuum_uniform _ _) (fun x => ?_) (fun _ => rfl) (fun _ => rfl) hw x (fun v => ?_) (fun v => ?_) _ (position_atSample x)⟩
  · simp only [Solver.Const.omega, angularFrequency, one_mul]; exact hc.le
  · simp [vacuum]
  · simp only [vacuum, Matrix.one_mulVec]; rw [show star v ⬝ᵥ v = ((∑ c, normSq (v c) : ℝ) : ℂ) by simp [dotProduct, normSq_eq_conj_mul_self]]; simp
  · simp only [vacuum, Matrix.one_mulVec]; rw [show star v ⬝ᵥ v = ((∑ c, normSq (v c) : ℝ) : ℂ) by simp [dotProduct, normSq_eq_conj_mul_self]]; simp

end Verif.Balance
