import Verif.Props.SolverEnergy
import Verif.Props.SolverTolerance

/-!
# C121: small errors in the material and in the source give small errors in the field

The data that are given to the solver have a limited precision: the permittivity, the permeability and the source are rounded when they are stored.  These theorems bound the effect on the solution.
-/

namespace Verif.Solver

open Verif Verif.Fourier Verif.Backend Complex Matrix
open Verif.Spec.Solver (NoGain Within WaveEquation ScalarWaveEquation)

variable {d n : ℕ} {N : Fin d → ℕ}

/-- The difference between two solutions solves the wave equation, with the difference of the sources and of the materials as source. -/
theorem difference {k : Fin d → Idx N → ℝ} {k0 : ℝ} {epsilon epsilon' mu mu' : Tensor 3 N} {S S' E E' : Field 3 N} (h : WaveEquation k k0 epsilon mu S E) (h' : WaveEquation k k0 epsilon' mu' S' E') :
    WaveEquation k k0 epsilon mu ((S' - S) + (((k0 : ℂ) ^ 2) • mulField (fun x => epsilon' x - epsilon x) E' - curl 3 k (mulField (fun x => (mu' x)⁻¹ - (mu x)⁻¹) (curl 3 k E')))) (E' - E) := by
  have hL := curl_isLinear (n := 3) (m := 3) k
  have hM := fun A : Tensor 3 N => mulField_isLinear A
  intro c x
  have e := h c x
  have e' := h' c x
  simp only [spec_curl, spec_act] at e e' ⊢
  rw [hL.map_sub, (hM _).map_sub, (hM _).map_sub, hL.map_sub, mulField_sub_left, mulField_sub_left, hL.map_sub]
  simp only [Pi.add_apply, Pi.sub_apply, Pi.smul_apply, smul_eq_mul]
  rw [← e, ← e']
  ring

section
variable {g : Grid.Obj d ℝ} (hs : ∀ a, g.step a ≠ 0) {k0 : ℝ} (hk0 : 0 < k0) (hd : d ≤ 3)

include hs hk0 hd in
theorem norm_difference {epsilon epsilon' mu mu' : Tensor 3 g.shape} {η ζ : ℝ} (hη : 0 ≤ η) (hζ : 0 ≤ ζ) (he : Within (fun x => epsilon' x - epsilon x) η)
    (hm : Within (fun x => (mu' x)⁻¹ - (mu x)⁻¹) ζ) (S S' E' : Field 3 g.shape) :
    Backend.norm ((S' - S) + (((k0 : ℂ) ^ 2) • mulField (fun x => epsilon' x - epsilon x) E' - curl 3 (kOf g) (mulField (fun x => (mu' x)⁻¹ - (mu x)⁻¹) (curl 3 (kOf g) E')))) ≤
      Backend.norm (S' - S) + k0 ^ 2 * (η + ζ * sigmaD g.step k0 ^ 2) * Backend.norm E' := by
  have hD : 0 ≤ k0 * sigmaD g.step k0 := mul_nonneg hk0.le (sigmaD_nonneg _ hk0)
  have c := norm_curl_le hd (kOf g) hD (kOf_bound g hs hk0)
  refine (norm_add_le' _ _).trans (add_le_add_right ?_ _)
  refine (norm_sub_le' _ _).trans ?_
  have h1 : Backend.norm (((k0 : ℂ) ^ 2) • mulField (fun x => epsilon' x - epsilon x) E') ≤ k0 ^ 2 * (η * Backend.norm E') := by
    rw [norm_smul', norm_pow, norm_real, Real.norm_of_nonneg hk0.le]
    exact mul_le_mul_of_nonneg_left (norm_mulField_le _ hη he E') (by positivity)
  have h2 : Backend.norm (curl 3 (kOf g) (mulField (fun x => (mu' x)⁻¹ - (mu x)⁻¹) (curl 3 (kOf g) E'))) ≤ k0 * sigmaD g.step k0 * (ζ * (k0 * sigmaD g.step k0 * Backend.norm E')) :=
    (c _).trans (mul_le_mul_of_nonneg_left ((norm_mulField_le _ hζ hm _).trans (mul_le_mul_of_nonneg_left (c E') hζ)) hD)
  nlinarith

section Absorbing
variable {epsilon mu : Tensor 3 g.shape} {δ : ℝ} (habs : ∀ x (v : Fin 3 → ℂ), δ * ∑ i, ‖v i‖ ^ 2 ≤ (star v ⬝ᵥ (epsilon x).mulVec v).im) (hgain : NoGain mu)
  (hinv : ∀ x, IsUnit (mu x).det)
include hk0 habs hgain hinv

/-- **C121 (any field).** In a material that absorbs at least `δ` at every point, the error of any field is at most what is missing from the wave equation, divided by `k₀² δ`. -/
theorem C121_defect {S E : Field 3 g.shape} (hE : WaveEquation (kOf g) k0 epsilon mu S E) (F : Field 3 g.shape) :
    k0 ^ 2 * δ * Backend.norm (F - E) ≤ Backend.norm (defect (kOf g) k0 epsilon mu S F) := by
  have hF : WaveEquation (kOf g) k0 epsilon mu (S + defect (kOf g) k0 epsilon mu S F) F := fun c x => by
    simp only [Pi.add_apply, defect]
    ring
  have h := difference hE hF
  simp only [sub_self, add_sub_cancel_left] at h
  rw [mulField_zero, mulField_zero, (curl_isLinear (n := 3) (m := 3) (kOf g)).map_zero, smul_zero, sub_zero, add_zero] at h
  exact C75_bound hk0.ne' habs hgain hinv h

include hs hd in
/-- **C121 (materials and sources).** For all grids, sources, and materials, of which one absorbs at least `δ` at every point: if the permittivities differ by at most `η` and the inverse permeabilities by at most
`ζ`, then the relative difference between the fields is at most `(η + ζ K²) / δ`, plus that of the sources, where `K` bounds the wavenumbers of the grid in units of `k₀`. -/
theorem C121_material {epsilon' mu' : Tensor 3 g.shape} {η ζ : ℝ} (hη : 0 ≤ η) (hζ : 0 ≤ ζ) (he : Within (fun x => epsilon' x - epsilon x) η)
    (hm : Within (fun x => (mu' x)⁻¹ - (mu x)⁻¹) ζ) {S S' E E' : Field 3 g.shape} (hE : WaveEquation (kOf g) k0 epsilon mu S E) (hE' : WaveEquation (kOf g) k0 epsilon' mu' S' E') :
    k0 ^ 2 * δ * Backend.norm (E' - E) ≤ Backend.norm (S' - S) + k0 ^ 2 * (η + ζ * sigmaD g.step k0 ^ 2) * Backend.norm E' :=
  (C75_bound hk0.ne' habs hgain hinv (difference hE hE')).trans (norm_difference hs hk0 hd hη hζ he hm S S' E')

include hs hd in
/-- **C121 (permittivity).** If only the permittivity differs, the relative difference is at most `η / δ`. -/
theorem C121_permittivity {epsilon' : Tensor 3 g.shape} {η : ℝ} (hη : 0 ≤ η) (he : Within (fun x => epsilon' x - epsilon x) η) {S E E' : Field 3 g.shape}
    (hE : WaveEquation (kOf g) k0 epsilon mu S E) (hE' : WaveEquation (kOf g) k0 epsilon' mu S E') : δ * Backend.norm (E' - E) ≤ η * Backend.norm E' := by
  have h := C121_material hs hk0 hd habs hgain hinv hη le_rfl he (mu' := mu) (fun x v => by simp) hE hE'
  rw [sub_self, (norm_eq_zero_iff _).2 rfl, zero_mul, add_zero, zero_add, mul_assoc, mul_assoc] at h
  exact le_of_mul_le_mul_left h (by positivity)

end Absorbing

/-- The wave operator, as a linear map. -/
noncomputable def waveMap (k : Fin d → Idx N → ℝ) (k0 : ℝ) (epsilon mu : Tensor 3 N) : Field 3 N →ₗ[ℂ] Field 3 N where
  toFun E := defect k k0 epsilon mu 0 E
  map_add' E F := by
    have hL := curl_isLinear (n := 3) (m := 3) k
    funext c x
    simp only [defect, spec_curl, spec_act, Pi.add_apply, Pi.zero_apply, sub_zero]
    rw [hL.map_add, (mulField_isLinear _).map_add, (mulField_isLinear _).map_add, hL.map_add]
    simp only [Pi.add_apply]
    ring
  map_smul' z E := by
    have hL := curl_isLinear (n := 3) (m := 3) k
    funext c x
    simp only [defect, spec_curl, spec_act, Pi.smul_apply, Pi.zero_apply, sub_zero, RingHom.id_apply, smul_eq_mul]
    rw [hL.map_smul, (mulField_isLinear _).map_smul, (mulField_isLinear _).map_smul, hL.map_smul]
    simp only [Pi.smul_apply, smul_eq_mul]
    ring

theorem waveMap_iff (k : Fin d → Idx N → ℝ) (k0 : ℝ) (epsilon mu : Tensor 3 N) (S E : Field 3 N) : waveMap k k0 epsilon mu E = S ↔ WaveEquation k k0 epsilon mu S E := by
  refine ⟨fun h c x => ?_, fun h => funext fun c => funext fun x => ?_⟩
  · rw [← congrFun (congrFun h c) x]
    simp [waveMap, defect]
  · have := h c x
    simpa [waveMap, defect] using this

/-- A problem with a unique solution bounds its solutions. -/
theorem exists_bound {k : Fin d → Idx N → ℝ} {k0 : ℝ} {epsilon mu : Tensor 3 N} (hu : ∀ E, WaveEquation k k0 epsilon mu 0 E → E = 0) :
    ∃ C : ℝ, 0 < C ∧ ∀ S E, WaveEquation k k0 epsilon mu S E → Backend.norm E ≤ C * Backend.norm S := by
  let T : Hil 3 N →ₗ[ℂ] Hil 3 N := (toE (n := 3) (N := N)).toLinearMap ∘ₗ waveMap k k0 epsilon mu ∘ₗ (toE (n := 3) (N := N)).symm.toLinearMap
  have hk : LinearMap.ker T = ⊥ := by
    rw [LinearMap.ker_eq_bot']
    intro v hv
    have h1 : waveMap k k0 epsilon mu (toE.symm v) = 0 := toE.injective (hv.trans (map_zero toE).symm)
    have h2 := hu _ ((waveMap_iff k k0 epsilon mu 0 _).1 h1)
    simpa using h2
  obtain ⟨C, hC, hT⟩ := LinearMap.exists_antilipschitzWith T hk
  refine ⟨C, by exact_mod_cast hC, fun S E h => ?_⟩
  have h1 := hT.le_mul_dist (toE E) 0
  rw [map_zero, dist_zero_right, dist_zero_right] at h1
  have h2 : T (toE E) = toE S := by
    change toE (waveMap k k0 epsilon mu (toE.symm (toE E))) = _
    rw [LinearEquiv.symm_apply_apply, (waveMap_iff k k0 epsilon mu S E).2 h]
  rwa [h2, norm_toE, norm_toE] at h1

include hs hk0 hd in
/-- **C121 (all well-posed problems).** If the wave equation without source only has the solution 0, in materials with or without absorption, then there is a number `C` so that for all materials that differ little from
this one and all sources the wave equation has exactly one solution, and it differs from the original one by at most `C` times the differences. -/
theorem C121_well_posed {epsilon mu : Tensor 3 g.shape} (hu : ∀ E, WaveEquation (kOf g) k0 epsilon mu 0 E → E = 0) : ∃ C : ℝ, 0 < C ∧ ∀ (epsilon' mu' : Tensor 3 g.shape) (η ζ : ℝ), 0 ≤ η → 0 ≤ ζ →
    Within (fun x => epsilon' x - epsilon x) η → Within (fun x => (mu' x)⁻¹ - (mu x)⁻¹) ζ → C * k0 ^ 2 * (η + ζ * sigmaD g.step k0 ^ 2) < 1 → ∀ S' : Field 3 g.shape,
      (∃! E', WaveEquation (kOf g) k0 epsilon' mu' S' E') ∧ ∀ S E E', WaveEquation (kOf g) k0 epsilon mu S E → WaveEquation (kOf g) k0 epsilon' mu' S' E' →
        Backend.norm (E' - E) ≤ C * (Backend.norm (S' - S) + k0 ^ 2 * (η + ζ * sigmaD g.step k0 ^ 2) * Backend.norm E') := by
  obtain ⟨C, hC, hb⟩ := exists_bound hu
  have key : ∀ (epsilon' mu' : Tensor 3 g.shape) (η ζ : ℝ), 0 ≤ η → 0 ≤ ζ → Within (fun x => epsilon' x - epsilon x) η → Within (fun x => (mu' x)⁻¹ - (mu x)⁻¹) ζ → ∀ S' S E E',
      WaveEquation (kOf g) k0 epsilon mu S E → WaveEquation (kOf g) k0 epsilon' mu' S' E' →
        Backend.norm (E' - E) ≤ C * (Backend.norm (S' - S) + k0 ^ 2 * (η + ζ * sigmaD g.step k0 ^ 2) * Backend.norm E') := fun epsilon' mu' η ζ hη hζ he hm S' S E E' h h' =>
    (hb _ _ (difference h h')).trans (mul_le_mul_of_nonneg_left (norm_difference hs hk0 hd hη hζ he hm S S' E') hC.le)
  refine ⟨C, hC, fun epsilon' mu' η ζ hη hζ he hm hlt S' => ⟨?_, fun S E E' => key epsilon' mu' η ζ hη hζ he hm S' S E E'⟩⟩
  have h0 : WaveEquation (kOf g) k0 epsilon mu 0 0 := (waveMap_iff _ _ _ _ _ _).1 (map_zero _)
  have hinj : Function.Injective (waveMap (kOf g) k0 epsilon' mu') := by
    rw [← LinearMap.ker_eq_bot, LinearMap.ker_eq_bot']
    intro F hF
    have h1 := key epsilon' mu' η ζ hη hζ he hm 0 0 0 F h0 ((waveMap_iff _ _ _ _ _ _).1 hF)
    rw [sub_zero, sub_zero, (norm_eq_zero_iff _).2 rfl, zero_add, ← mul_assoc, ← mul_assoc] at h1
    by_contra hne
    have hpos : 0 < Backend.norm F := lt_of_le_of_ne (norm_nonneg' _) fun h2 => hne ((norm_eq_zero_iff _).1 h2.symm)
    nlinarith
  obtain ⟨E', hE'⟩ := LinearMap.injective_iff_surjective.1 hinj S'
  exact ⟨E', (waveMap_iff _ _ _ _ _ _).1 hE', fun F hF => hinj (((waveMap_iff _ _ _ _ _ _).2 hF).trans hE'.symm)⟩

/-- **C121 (scalar).** The same for scalar calculations: if the permittivity absorbs at least `δ` and the permittivities differ by at most `η`, then the relative difference is at most `η / δ`, plus that of the sources. -/
theorem C121_scalar {k : Fin d → Idx N → ℝ} {k0 : ℝ} (hk0 : 0 < k0) {epsilon epsilon' : Idx N → ℂ} {r δ η : ℝ} (habs : ∀ x, δ ≤ (epsilon x).im) (hη : 0 ≤ η)
    (he : ∀ x, ‖epsilon' x - epsilon x‖ ≤ η) {S S' E E' : Idx N → ℂ} (hE : ScalarWaveEquation k k0 epsilon (r : ℂ) S E) (hE' : ScalarWaveEquation k k0 epsilon' (r : ℂ) S' E') :
    k0 ^ 2 * δ * Backend.norm (fun _ : Fin 1 => E' - E) ≤ Backend.norm (fun _ : Fin 1 => S' - S) + k0 ^ 2 * η * Backend.norm (fun _ : Fin 1 => E') := by
  have hlap : Spec.Solver.negLaplacian k (E' - E) = Spec.Solver.negLaplacian k E' - Spec.Solver.negLaplacian k E := by
    unfold Spec.Solver.negLaplacian
    rw [ft_isLinear.map_sub]
    have : (fun x => (∑ a, (k a x : ℂ) ^ 2) * (ft E' - ft E) x) = (fun x => (∑ a, (k a x : ℂ) ^ 2) * ft E' x) - fun x => (∑ a, (k a x : ℂ) ^ 2) * ft E x := by
      funext x
      simp only [Pi.sub_apply]
      ring
    rw [this, ift_isLinear.map_sub]
  have hdiff : ScalarWaveEquation k k0 epsilon (r : ℂ) ((S' - S) + fun x => (k0 : ℂ) ^ 2 * ((epsilon' x - epsilon x) * E' x)) (E' - E) := by
    intro x
    have e := hE x
    have e' := hE' x
    rw [hlap]
    simp only [Pi.add_apply, Pi.sub_apply]
    rw [← e, ← e']
    ring
  have hbal := C75_scalar hdiff
  set R : Idx N → ℂ := (S' - S) + fun x => (k0 : ℂ) ^ 2 * ((epsilon' x - epsilon x) * E' x) with hR
  have hn : ∀ f : Idx N → ℂ, Backend.norm (fun _ : Fin 1 => f) ^ 2 = ∑ x, ‖f x‖ ^ 2 := fun f => by rw [norm_sq, Fin.sum_univ_one]
  have h1 : δ * Backend.norm (fun _ : Fin 1 => E' - E) ^ 2 ≤ ∑ x, (epsilon x).im * ‖(E' - E) x‖ ^ 2 := by
    rw [hn, Finset.mul_sum]
    exact Finset.sum_le_sum fun x _ => mul_le_mul_of_nonneg_right (habs x) (sq_nonneg _)
  have h2 : ‖∑ x, (starRingEnd ℂ) ((E' - E) x) * R x‖ ≤ Backend.norm (fun _ : Fin 1 => E' - E) * Backend.norm (fun _ : Fin 1 => R) := by
    have := norm_inner_le_norm (𝕜 := ℂ) (toE fun _ : Fin 1 => E' - E) (toE fun _ : Fin 1 => R)
    rwa [inner_toE, Fin.sum_univ_one, norm_toE, norm_toE] at this
  have h3 := (abs_le.1 ((abs_im_le_norm _).trans h2)).1
  have h4 : Backend.norm (fun _ : Fin 1 => R) ≤ Backend.norm (fun _ : Fin 1 => S' - S) + k0 ^ 2 * η * Backend.norm (fun _ : Fin 1 => E') := by
    have e : (fun _ : Fin 1 => R) = (fun _ => S' - S) + ((k0 : ℂ) ^ 2) • fun _ x => (epsilon' x - epsilon x) * E' x := by
      funext _ x
      simp [hR]
    rw [e]
    refine (norm_add_le' _ _).trans (add_le_add_right ?_ _)
    rw [norm_smul', norm_pow, norm_real, Real.norm_of_nonneg hk0.le, mul_assoc]
    refine mul_le_mul_of_nonneg_left (le_of_sq_le_sq ?_ (mul_nonneg hη (norm_nonneg' _))) (by positivity)
    rw [hn, mul_pow, hn, Finset.mul_sum]
    refine Finset.sum_le_sum fun x _ => ?_
    rw [norm_mul, mul_pow]
    exact mul_le_mul_of_nonneg_right (pow_le_pow_left₀ (norm_nonneg _) (he x) 2) (sq_nonneg _)
  refine le_trans ?_ h4
  have hk : 0 < k0 ^ 2 := by positivity
  rcases (norm_nonneg' (fun _ : Fin 1 => E' - E)).eq_or_lt with h0 | h0
  · rw [← h0, mul_zero]
    exact norm_nonneg' _
  · have h6 := mul_le_mul_of_nonneg_left h1 hk.le
    refine le_of_mul_le_mul_left ?_ h0
    nlinarith

end

end Verif.Solver
