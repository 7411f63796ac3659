import Verif.Props.ProblemRefinementCoupled

/-!
# C128: the magnetic field converges to the exact one

The magnetic flux density that the code calculates is the curl of the electric field.  That derivatives of a field that converges do so as well, does not go without saying.
-/

namespace Verif.Refinement

open Verif Verif.Fourier Verif.Backend Verif.Solver Verif.Continuous Verif.Spec.Continuous Verif.Spec.Refinement Complex Matrix
open Verif.Spec.Solver (Coupled Within WaveEquation)

variable {d : ℕ}

theorem abs_re_dot_le {n : ℕ} {N : Fin d → ℕ} (F G : Solver.Field n N) : |(dot F G).re| ≤ Backend.norm F * Backend.norm G := by
  rw [dot_eq, ← norm_toE, ← norm_toE]
  exact (abs_re_le_norm _).trans (norm_inner_le_norm _ _)

theorem dot_self_re {n : ℕ} {N : Fin d → ℕ} (F : Solver.Field n N) : (dot F F).re = Backend.norm F ^ 2 := by
  rw [dot_eq, ← norm_toE]
  exact (inner_self_eq_norm_sq (𝕜 := ℂ) _)

theorem sampled_within (hd : d ≤ 3) {g : Grid.Obj d ℝ} {A : Point → Matrix (Fin 3) (Fin 3) ℂ} {b : ℝ} (h : BoundedInSpace A b) {t : Tensor 3 g.shape} (ht : SampledFrom g A t) : Within t b := fun x v => by
  obtain ⟨ρ, hρ⟩ := exists_atSample hd g x
  rw [ht x ρ hρ]
  exact h ρ v

section
variable {g : Grid.Obj d ℝ} (hd : d ≤ 3) (hs : ∀ a, g.step a ≠ 0) (hN : ∀ a, 0 < g.shape a) {period : Fin d → ℝ} (hL : ∀ a, g.shape a * g.step a = period a)
include hd hs hN hL

/-- **C128 (magnetic field).** The curl of the solver's electric field differs from the exact one, in root mean square, at most in proportion to the terms that the grid cannot resolve. -/
theorem C128_flux {k0 : ℝ} (hk0 : 0 < k0) {epsilon : Point → Matrix (Fin 3) (Fin 3) ℂ} {δ : ℝ} (hδ : 0 < δ) (habs : AbsorbsInSpace epsilon δ) {b : ℝ} (hb : 0 ≤ b) (hbound : BoundedInSpace epsilon b) {r : ℝ}
    (hr : 0 < r) {S E : Fin 3 → Point → ℂ} (hE : WaveEquationInSpace k0 epsilon r S E) {a : Fin 3 → (Fin d → ℤ) → ℂ} (ha : ∀ c, HasSeries period (E c) (a c)) {e : Tensor 3 g.shape}
    {s E' : Solver.Field 3 g.shape} (he : SampledFrom g epsilon e) (hsf : ∀ c, SampledFrom g (S c) (s c)) (hE' : WaveEquation (kOf g) k0 e (fun _ => (r : ℂ) • 1) s E') {C : Solver.Field 3 g.shape}
    (hC : ∀ c, SampledFrom g (Spec.Continuous.curl E c) (C c)) :
    rms (Spec.Solver.curl (kOf g) E' - C) ≤
      2 * Real.sqrt 3 * (Real.sqrt ((b + δ) / r) / (k0 * δ) * ∑ c, remainder g.shape period (a c) + ∑ c, firstRemainder g.shape period (a c)) := by
  have hrc : (r : ℂ) ≠ 0 := ofReal_ne hr.ne'
  choose F hF using fun c => sampled_of_extruded hd g (hasSeries_extruded (ha c))
  set R := ∑ c, remainder g.shape period (a c) with hR
  set R1 := ∑ c, firstRemainder g.shape period (a c) with hR1
  have hR0 : 0 ≤ R := Finset.sum_nonneg fun c _ => remainder_nonneg _ _ _
  have hR10 : 0 ≤ R1 := Finset.sum_nonneg fun c _ => firstRemainder_nonneg _ _ _
  have hP : 0 < Real.sqrt (∏ b, (g.shape b : ℝ)) := Real.sqrt_pos.2 (Finset.prod_pos fun b _ => by exact_mod_cast hN b)
  set P := Real.sqrt (∏ b, (g.shape b : ℝ)) with hPdef
  have hdef := norm_le_of_bounded _ (by positivity) (defect_bounded hd hs hN hL hr hE ha he hsf hF)
  set D := defect (kOf g) k0 e (fun _ => (r : ℂ) • 1) s F with hD
  set X := F - E' with hX
  have herr : k0 ^ 2 * δ * Backend.norm X ≤ Backend.norm D := C121_defect hk0 (δ := δ) (fun x v => by
    obtain ⟨ρ, hρ⟩ := exists_atSample hd g x
    rw [he x ρ hρ]
    exact habs ρ v) (fun x v => by
    rw [Matrix.smul_mulVec, Matrix.one_mulVec, dotProduct_smul, star_dot_self, smul_eq_mul, im_mul_ofReal, ofReal_im, zero_mul]) (fun x => by
    rw [Matrix.det_smul, Matrix.det_one, mul_one]
    exact (pow_ne_zero _ hrc).isUnit) hE' F
  have hLin := curl_isLinear (n := 3) (m := 3) (kOf g)
  have heq : (r : ℂ)⁻¹ • Backend.curl 3 (kOf g) (Backend.curl 3 (kOf g) X) - ((k0 : ℂ) ^ 2) • mulField e X = D := by
    have e1 : ∀ V, Spec.Solver.act (fun _ => ((r : ℂ) • (1 : Matrix (Fin 3) (Fin 3) ℂ))⁻¹) (Spec.Solver.curl (kOf g) V) = (r : ℂ)⁻¹ • Backend.curl 3 (kOf g) V := by
      intro V
      funext c x
      unfold Spec.Solver.act
      rw [smul_one_inv hrc, Matrix.smul_mulVec, Matrix.one_mulVec, spec_curl]
      rfl
    funext c x
    have h1 := hE' c x
    rw [e1, spec_curl, spec_act, hLin.map_smul] at h1
    rw [hD]
    unfold defect
    rw [e1, spec_curl, spec_act, hLin.map_smul, hX, hLin.map_sub, hLin.map_sub, (mulField_isLinear e).map_sub]
    simp only [Pi.sub_apply, Pi.smul_apply, smul_eq_mul] at h1 ⊢
    rw [← h1]
    ring
  have hcurl : r⁻¹ * Backend.norm (Backend.curl 3 (kOf g) X) ^ 2 ≤ k0 ^ 2 * b * Backend.norm X ^ 2 + Backend.norm X * Backend.norm D := by
    have h1 := congrArg (fun V => (dot X V).re) heq
    rw [dot_sub, dot_smul, dot_smul, curl_adjoint, ← ofReal_inv, ← ofReal_pow, sub_re, re_ofReal_mul, re_ofReal_mul, dot_self_re] at h1
    have h2 := abs_re_dot_le X (mulField e X)
    have h3 := abs_re_dot_le X D
    have h4 := norm_mulField_le e hb (sampled_within hd hbound he) X
    have h5 : (dot X (mulField e X)).re ≤ b * Backend.norm X ^ 2 := by
      refine (le_abs_self _).trans (h2.trans ((mul_le_mul_of_nonneg_left h4 (Solver.norm_nonneg' _)).trans (le_of_eq ?_)))
      ring
    have h6 := mul_le_mul_of_nonneg_left h5 (sq_nonneg k0)
    linarith [le_abs_self (dot X D).re]
  have hsq : Backend.norm (Backend.curl 3 (kOf g) X) ≤ Real.sqrt (r * (b + δ)) / (k0 * δ) * Backend.norm D := by
    refine (pow_le_pow_iff_left₀ (Solver.norm_nonneg' _) (mul_nonneg (by positivity) (Solver.norm_nonneg' _)) two_ne_zero).1 ?_
    have hn := Solver.norm_nonneg' X
    have hn' := Solver.norm_nonneg' D
    have h1 : Backend.norm X ≤ Backend.norm D / (k0 ^ 2 * δ) := by
      rw [le_div_iff₀ (by positivity)]
      linarith
    have h2 : k0 ^ 2 * b * Backend.norm X ^ 2 + Backend.norm X * Backend.norm D ≤ k0 ^ 2 * b * (Backend.norm D / (k0 ^ 2 * δ)) ^ 2 + Backend.norm D / (k0 ^ 2 * δ) * Backend.norm D :=
      add_le_add (mul_le_mul_of_nonneg_left (pow_le_pow_left₀ hn h1 2) (by positivity)) (mul_le_mul_of_nonneg_right h1 hn')
    have h3 := hcurl.trans h2
    rw [inv_mul_le_iff₀ hr] at h3
    refine h3.trans (le_of_eq ?_)
    rw [mul_pow, div_pow (Real.sqrt _), Real.sq_sqrt (by positivity)]
    field_simp
  have hfirst : ∀ c x, ‖(Spec.Solver.curl (kOf g) F - C) c x‖ ≤ 2 * R1 := by
    intro c x
    obtain ⟨ρ, hρ⟩ := exists_atSample hd g x
    have := C128_first_curl hd hs hN hL (fun c => hasSeries_first (ha c)) hF c hρ
    rwa [← hC c x ρ hρ] at this
  have hn1 := norm_le_of_bounded _ (by positivity) hfirst
  have htri : Backend.norm (Spec.Solver.curl (kOf g) E' - C) ≤ Backend.norm (Backend.curl 3 (kOf g) X) + Backend.norm (Spec.Solver.curl (kOf g) F - C) := by
    have : Spec.Solver.curl (kOf g) E' - C = (Spec.Solver.curl (kOf g) F - C) - Backend.curl 3 (kOf g) X := by
      rw [hX, hLin.map_sub, spec_curl, spec_curl]
      abel
    rw [this, add_comm]
    exact norm_sub_le' _ _
  rw [rms_norm, ← hPdef, div_le_iff₀ hP]
  refine htri.trans ((add_le_add (hsq.trans (mul_le_mul_of_nonneg_left hdef (by positivity))) hn1).trans (le_of_eq ?_))
  have h1 : Real.sqrt (r * (b + δ)) * r⁻¹ = Real.sqrt ((b + δ) / r) := by
    rw [show (b + δ) / r = r * (b + δ) / r ^ 2 by field_simp, Real.sqrt_div (by positivity), Real.sqrt_sq hr.le, div_eq_mul_inv]
  rw [← h1]
  push_cast
  ring

/-- **C128 (coupled, magnetic field).** The same for materials with coupling. -/
theorem C128_coupled_flux {k0 : ℝ} (hk0 : 0 < k0) {epsilon xi zeta mu : Point → Matrix (Fin 3) (Fin 3) ℂ} {δ : ℝ} (hδ : 0 < δ) (habs : AbsorbsBothInSpace epsilon xi zeta mu δ) {bz bm : ℝ} (hbz : 0 ≤ bz)
    (hbm : 0 ≤ bm) (hz' : BoundedInSpace zeta bz) (hm' : BoundedInSpace mu bm) {S E H : Fin 3 → Point → ℂ}
    (hE : CoupledInSpace k0 epsilon xi zeta mu S E H) {a b : Fin 3 → (Fin d → ℤ) → ℂ} (ha : ∀ c, HasFirstSeries period (E c) (a c)) (hb : ∀ c, HasFirstSeries period (H c) (b c))
    {e x z m : Tensor 3 g.shape} {s E' H' C : Solver.Field 3 g.shape} (he : SampledFrom g epsilon e) (hx : SampledFrom g xi x) (hz : SampledFrom g zeta z) (hm : SampledFrom g mu m)
    (hsf : ∀ c, SampledFrom g (S c) (s c)) (hE' : Coupled (kOf g) k0 e x z m s E' H') (hC : ∀ c, SampledFrom g (Spec.Continuous.curl E c) (C c)) :
    rms (Spec.Solver.curl (kOf g) E' - C) ≤
      2 * Real.sqrt 3 * (bz + bm) / δ * Real.sqrt ((∑ c, firstRemainder g.shape period (a c)) ^ 2 + (∑ c, firstRemainder g.shape period (b c)) ^ 2) := by
  choose F hF using fun c => sampled_of_extruded hd g (hasFirst_extruded (ha c))
  choose G hG using fun c => sampled_of_extruded hd g (hasFirst_extruded (hb c))
  have h0 := C128_coupled_error hd hs hN hL hk0 hδ habs hE ha hb he hx hz hm hsf hE' hF hG
  have hP : 0 < Real.sqrt (∏ b, (g.shape b : ℝ)) := Real.sqrt_pos.2 (Finset.prod_pos fun b _ => by exact_mod_cast hN b)
  have h1 : Spec.Solver.curl (kOf g) E' - C = (I * k0) • (mulField z (E' - F) + mulField m (H' - G)) := by
    rw [(mulField_isLinear z).map_sub, (mulField_isLinear m).map_sub]
    funext c q
    obtain ⟨ρ, hρ⟩ := exists_atSample hd g q
    have hval : ∀ {A : Point → Matrix (Fin 3) (Fin 3) ℂ} {t : Tensor 3 g.shape} {V : Fin 3 → Point → ℂ} {W : Solver.Field 3 g.shape}, SampledFrom g A t → (∀ c, SampledFrom g (V c) (W c)) →
        mulField t W c q = (A ρ).mulVec (fun j => V j ρ) c := by
      intro A t V W hA hV
      rw [← spec_act]
      unfold Spec.Solver.act
      rw [hA q ρ hρ, show (fun j => W j q) = fun j => V j ρ from funext fun j => hV j q ρ hρ]
    simp only [Pi.sub_apply, Pi.add_apply, Pi.smul_apply, smul_eq_mul]
    rw [hE'.1 c q, hC c q ρ hρ, hE.1 c ρ, spec_act, spec_act, hval hz hF, hval hm hG]
    ring
  have r1 : rms (E' - F) ≤ Real.sqrt (rms (E' - F) ^ 2 + rms (H' - G) ^ 2) := Real.le_sqrt_of_sq_le (le_add_of_nonneg_right (sq_nonneg _))
  have r2 : rms (H' - G) ≤ Real.sqrt (rms (E' - F) ^ 2 + rms (H' - G) ^ 2) := Real.le_sqrt_of_sq_le (le_add_of_nonneg_left (sq_nonneg _))
  have h2 : rms (Spec.Solver.curl (kOf g) E' - C) ≤ k0 * (bz * rms (E' - F) + bm * rms (H' - G)) := by
    rw [h1, rms_norm, rms_norm, rms_norm, norm_smul', norm_mul, norm_I, one_mul, norm_real, Real.norm_of_nonneg hk0.le, mul_div_assoc]
    refine mul_le_mul_of_nonneg_left ?_ hk0.le
    rw [← mul_div_assoc, ← mul_div_assoc, ← add_div]
    refine div_le_div_of_nonneg_right ((norm_add_le' _ _).trans ?_) hP.le
    exact add_le_add (norm_mulField_le z hbz (sampled_within hd hz' hz) _) (norm_mulField_le m hbm (sampled_within hd hm' hm) _)
  refine h2.trans ((mul_le_mul_of_nonneg_left (add_le_add (mul_le_mul_of_nonneg_left (r1.trans h0) hbz) (mul_le_mul_of_nonneg_left (r2.trans h0) hbm)) hk0.le).trans (le_of_eq ?_))
  field_simp

end

theorem bounded_smul {f : Point → ℂ} {b : ℝ} (h : ∀ r, ‖f r‖ ≤ b) : BoundedInSpace (fun r => f r • 1) b := fun r v => by
  simp only [Matrix.smul_mulVec, Matrix.one_mulVec, Pi.smul_apply, smul_eq_mul, norm_mul, mul_pow, ← Finset.mul_sum]
  exact mul_le_mul_of_nonneg_right (pow_le_pow_left₀ (norm_nonneg _) (h r) 2) (Finset.sum_nonneg fun _ _ => sq_nonneg _)

theorem demoEpsilon_bounded : BoundedInSpace demoEpsilon 4 := bounded_smul fun r => by
  refine (norm_add_le _ _).trans ?_
  rw [norm_real, norm_I, Real.norm_eq_abs]
  have h1 := abs_le.1 (Real.abs_sin_le_one (2 * Real.pi * r 0))
  have : |2 + Real.sin (2 * Real.pi * r 0)| ≤ 3 := abs_le.2 ⟨by linarith, by linarith⟩
  linarith

/-- The hypotheses of `C128_flux` are met: a permittivity that varies everywhere. -/
example {g : Grid.Obj 1 ℝ} (hs : ∀ a, g.step a ≠ 0) (hN : ∀ a, 0 < g.shape a) (hL : ∀ a, g.shape a * g.step a = 1) {e : Tensor 3 g.shape} (he : SampledFrom g demoEpsilon e) {s E' C : Solver.Field 3 g.shape}
    (hsf : ∀ c, SampledFrom g (demoSource c) (s c)) (hE' : WaveEquation (kOf g) (1 : ℝ) e (fun _ => ((2 : ℝ) : ℂ) • 1) s E') (hC : ∀ c, SampledFrom g (Spec.Continuous.curl demoField c) (C c)) :=
  C128_flux (period := 1) (by decide) hs hN hL one_pos one_pos demoEpsilon_absorbs (by norm_num) demoEpsilon_bounded two_pos (S := demoSource) (E := demoField) (fun _ _ => rfl)
    (fun _ => hasSeries_add (hasSeries_single 1 _ _) (hasSeries_single 1 _ _)) he hsf hE' hC

/-- The hypotheses of `C128_coupled_flux` are met. -/
example {g : Grid.Obj 1 ℝ} (hs : ∀ a, g.step a ≠ 0) (hN : ∀ a, 0 < g.shape a) (hL : ∀ a, g.shape a * g.step a = 1) {e x z m : Tensor 3 g.shape} (he : SampledFrom g demoLossy e)
    (hx : SampledFrom g (fun r => demoChirality r • 1) x) (hz : SampledFrom g (fun r => -demoChirality r • 1) z) (hm : SampledFrom g (fun _ => (1 + 2 * I : ℂ) • 1) m) {s E' H' C : Solver.Field 3 g.shape}
    (hsf : ∀ c, SampledFrom g (demoCurrent c) (s c)) (hE' : Coupled (kOf g) (1 : ℝ) e x z m s E' H') (hC : ∀ c, SampledFrom g (Spec.Continuous.curl (fun c _ => if c = 1 then 1 else 0) c) (C c)) :=
  C128_coupled_flux (period := 1) (by decide) hs hN hL one_pos one_pos demoCoupled_absorbs (bz := 1) (bm := 3) (by norm_num) (by norm_num) (bounded_smul fun r => by
      rw [norm_neg]
      exact (norm_wave _ _).le)
    (bounded_smul fun r => (norm_add_le _ _).trans (by rw [norm_one, norm_mul, norm_I]; norm_num)) demoCoupled demoCoupled_series.1 demoCoupled_series.2 he hx hz hm hsf hE' hC

end Verif.Refinement

namespace Verif.Problem

open Verif Verif.Fourier Verif.Backend Verif.Solver Verif.Construct Verif.Refinement Complex Matrix
open Verif.Spec.Solver (NoGain)
open Verif.Spec.Continuous (Point)
open Verif.Spec.Refinement

variable {d : ℕ}

theorem getB_difference {g : Grid.Obj d ℝ} (hs : ∀ a, g.step a ≠ 0) {k0 : ℝ} (hk0 : 0 < k0) {co : Const} (hc : 0 < co.c) (t : State 3 g.shape) (E' C : Solver.Field 3 g.shape) :
    k0 * co.c * rms (getB co k0 (backendK g k0) t - fun c x => C c x / (I * (k0 * co.c : ℝ))) ≤
      rms (Backend.curl 3 (kOf g) (getE k0 t - E')) + rms (Spec.Solver.curl (kOf g) E' - C) := by
  have hcc : (co.c : ℂ) ≠ 0 := ofReal_ne hc.ne'
  have hkc : (k0 : ℂ) ≠ 0 := ofReal_ne hk0.ne'
  have h1 : ∀ c x, I * (k0 * co.c : ℝ) * (getB co k0 (backendK g k0) t - fun c x => C c x / (I * (k0 * co.c : ℝ))) c x =
      (Backend.curl 3 (kOf g) (getE k0 t - E') + (Spec.Solver.curl (kOf g) E' - C)) c x := fun c x => by
    have h2 := C43_faraday g hs hk0.ne' hc.ne' t c x
    rw [(curl_isLinear (n := 3) (m := 3) (kOf g)).map_sub, ← spec_curl, ← spec_curl]
    simp only [Pi.sub_apply, Pi.add_apply]
    rw [h2, Const.omega, angularFrequency]
    push_cast
    field_simp [I_ne_zero]
    ring
  have h3 : Backend.norm (Backend.curl 3 (kOf g) (getE k0 t - E') + (Spec.Solver.curl (kOf g) E' - C)) =
      k0 * co.c * Backend.norm (getB co k0 (backendK g k0) t - fun c x => C c x / (I * (k0 * co.c : ℝ))) := by
    rw [show Backend.curl 3 (kOf g) (getE k0 t - E') + (Spec.Solver.curl (kOf g) E' - C) = (I * (k0 * co.c : ℝ)) • (getB co k0 (backendK g k0) t - fun c x => C c x / (I * (k0 * co.c : ℝ))) from
      funext fun c => funext fun x => (h1 c x).symm, norm_smul', norm_mul, norm_I, one_mul, norm_real, Real.norm_of_nonneg (by positivity)]
  rw [rms_norm, rms_norm, rms_norm, ← mul_div_assoc, ← h3, ← add_div]
  exact div_le_div_of_nonneg_right (norm_add_le' _ _) (Real.sqrt_nonneg _)

section
variable (hd : d ≤ 3) {period : Fin d → ℝ} (hper : ∀ b, period b ≠ 0) {k0 : ℝ} (hk0 : 0 < k0) {epsilon : Point → Matrix (Fin 3) (Fin 3) ℂ} {δ : ℝ} (hδ : 0 < δ) (habs : AbsorbsInSpace epsilon δ)
  {r : ℝ} (hr : 0 < r) {S E : Fin 3 → Point → ℂ} (hE : WaveEquationInSpace k0 epsilon r S E) {a : Fin 3 → (Fin d → ℤ) → ℂ} (ha : ∀ c, HasSeries period (E c) (a c))
include hper hk0 hδ habs hr hE ha

/-- **C128 (as called, magnetic field).** For every error there is a number of samples and, for all arguments with at least that many samples of the same problem in space, a number of iterations, after which the
magnetic flux density `B` of the solver differs less from `∇ × E / (i ω)` for the exact electric field. -/
theorem C128_called_flux_limit {b : ℝ} (hb : 0 ≤ b) (hbound : BoundedInSpace epsilon b) {co : Const} (hc : 0 < co.c) {η : ℝ} (hη : 0 < η) :
    ∃ M : ℕ, ∀ (p : Args d) (m : Medium 3 p.grid.shape) (s E0 : Solver.Field 3 p.grid.shape),
      Samples co p m s E0 period k0 epsilon r S → (∀ b, M ≤ p.grid.shape b) → ∀ (o : Optimum) (tol : ℝ), 0 ≤ tol →
      ∀ B : Solver.Field 3 p.grid.shape, (∀ c, SampledFrom p.grid (fun ρ => Spec.Continuous.curl E c ρ / (I * (k0 * co.c : ℝ))) (B c)) →
      ∃ t, p.start co tol o = .ok ⟨3, t⟩ ∧ ∃ j0, ∀ i ≥ j0, (∃ u, run (.vectorial hd) (backendK p.grid k0) t i = .ok u ∧ rms (getB co k0 (backendK p.grid k0) u - B) < η) ∨
        (run (.vectorial hd) (backendK p.grid k0) t i = .error .zeroDivision ∧
          ∃ j < i, ∃ u, run (.vectorial hd) (backendK p.grid k0) t j = .ok u ∧ rms (getB co k0 (backendK p.grid k0) u - B) < η) := by
  have hkc : 0 < k0 * co.c := by positivity
  have hI : I * ((k0 * co.c : ℝ) : ℂ) ≠ 0 := mul_ne_zero I_ne_zero (ofReal_ne hkc.ne')
  set η' := k0 * co.c * η / 2 with hη'
  have hη0 : 0 < η' := by positivity
  set K := Real.sqrt ((b + δ) / r) / (k0 * δ) with hK
  have hK0 : 0 < K := by
    have : 0 < (b + δ) / r := by positivity
    positivity
  have h3 : 0 < 2 * Real.sqrt 3 := by positivity
  choose M hM using fun c => tail_small (ha c).second (fun j => mul_nonneg (squared_nonneg _) (norm_nonneg _)) (show 0 < η' / (2 * Real.sqrt 3) / (6 * K) by positivity)
  choose M' hM' using fun c => tail_small (summable_weights (hasSeries_first (ha c))) (fun j => mul_nonneg (Finset.sum_nonneg fun _ _ => abs_nonneg _) (norm_nonneg _))
    (show 0 < η' / (2 * Real.sqrt 3) / 6 by positivity)
  refine ⟨∑ c, M c + ∑ c, M' c, fun p m s E0 h hMp o tol htol B hB => ?_⟩
  have hs : ∀ b, p.grid.step b ≠ 0 := fun b h0 => hper b (by rw [← h.period b, h0, mul_zero])
  have hab := sampled_absorbs hd habs h.epsilon
  have hgain : NoGain m.epsilon := fun x v => le_trans (mul_nonneg hδ.le (Finset.sum_nonneg fun i _ => sq_nonneg _)) (hab x v)
  obtain ⟨t, E', h1, -, h2, h4⟩ := C86_uniform h.describes h.vectorial hd hs (by rw [h.wavenumber]; exact hk0) h.xi h.zeta hgain (noGain_real h.mu) o tol htol h.form hr h.mu ⟨δ, hδ, hab⟩
  rw [h.wavenumber] at h2 h4
  rw [show m.mu = fun _ => (r : ℂ) • 1 from funext h.mu] at h2
  set C : Solver.Field 3 p.grid.shape := fun c x => I * (k0 * co.c : ℝ) * B c x with hCdef
  have hBC : B = fun c x => C c x / (I * (k0 * co.c : ℝ)) := by
    funext c x
    rw [hCdef]
    dsimp only
    rw [mul_div_cancel_left₀ _ hI]
  have hC : ∀ c, SampledFrom p.grid (Spec.Continuous.curl E c) (C c) := fun c x ρ hρ => by
    rw [hCdef]
    dsimp only
    rw [hB c x ρ hρ, mul_div_cancel₀ _ hI]
  have h5 := C128_flux hd hs h.describes.nonempty h.period hk0 hδ habs hb hbound hr hE ha h.epsilon h.source h2 hC
  have b1 : ∀ c, remainder p.grid.shape period (a c) < η' / (2 * Real.sqrt 3) / (6 * K) := fun c => hM c p.grid.shape fun b =>
    ((Finset.single_le_sum (f := M) (fun _ _ => Nat.zero_le _) (Finset.mem_univ c)).trans (Nat.le_add_right _ _)).trans (hMp b)
  have b2 : ∀ c, firstRemainder p.grid.shape period (a c) < η' / (2 * Real.sqrt 3) / 6 := fun c => hM' c p.grid.shape fun b =>
    ((Finset.single_le_sum (f := M') (fun _ _ => Nat.zero_le _) (Finset.mem_univ c)).trans (Nat.le_add_left _ _)).trans (hMp b)
  have b3 : K * ∑ c, remainder p.grid.shape period (a c) < η' / (2 * Real.sqrt 3) / 2 := by
    have : ∑ c, remainder p.grid.shape period (a c) < 3 * (η' / (2 * Real.sqrt 3) / (6 * K)) := by
      rw [Fin.sum_univ_three]
      linarith [b1 0, b1 1, b1 2]
    refine (mul_lt_mul_of_pos_left this hK0).trans_le (le_of_eq ?_)
    field_simp
    ring
  have b4 : ∑ c, firstRemainder p.grid.shape period (a c) < η' / (2 * Real.sqrt 3) / 2 := by
    rw [Fin.sum_univ_three]
    linarith [b2 0, b2 1, b2 2]
  have h6 : rms (Spec.Solver.curl (kOf p.grid) E' - C) < η' := by
    refine h5.trans_lt ?_
    rw [← lt_div_iff₀' h3]
    linarith
  have hP : 0 < Real.sqrt (∏ b, (p.grid.shape b : ℝ)) := Real.sqrt_pos.2 (Finset.prod_pos fun b _ => by exact_mod_cast h.describes.nonempty b)
  have hD := sigmaD_nonneg p.grid.step hk0
  have hcl : ∀ V, rms (Backend.curl 3 (kOf p.grid) V) ≤ k0 * sigmaD p.grid.step k0 * rms V := fun V => by
    rw [rms_norm, rms_norm, ← mul_div_assoc]
    exact div_le_div_of_nonneg_right (norm_curl_le hd (kOf p.grid) (by positivity) (kOf_bound p.grid hs hk0) V) hP.le
  have hfin : ∀ u : State 3 p.grid.shape, rms (getE k0 u - E') < η' / (k0 * sigmaD p.grid.step k0 + 1) → rms (getB co k0 (backendK p.grid k0) u - B) < η := by
    intro u hu
    have h7 := getB_difference hs hk0 hc u E' C
    rw [← hBC] at h7
    have h8 := hcl (getE k0 u - E')
    rw [lt_div_iff₀ (by positivity)] at hu
    have h9 : 0 ≤ rms (getE k0 u - E') := Real.sqrt_nonneg _
    have h10 : k0 * co.c * rms (getB co k0 (backendK p.grid k0) u - B) < k0 * co.c * η := by
      have : k0 * co.c * η = 2 * η' := by
        rw [hη']
        ring
      rw [this]
      nlinarith
    exact lt_of_mul_lt_mul_left h10 hkc.le
  obtain ⟨j0, hj⟩ := h4.tendsto (η' / (k0 * sigmaD p.grid.step k0 + 1) * Real.sqrt (∏ b, (p.grid.shape b : ℝ))) (by positivity)
  refine ⟨t, h1, j0, fun i hi => ?_⟩
  rcases hj i hi with ⟨u, h6, h7⟩ | ⟨h6, j, hji, u, h7, h8⟩
  · refine .inl ⟨u, h6, hfin u ?_⟩
    rw [rms_norm, div_lt_iff₀ hP]
    exact h7
  · refine .inr ⟨h6, j, hji, u, h7, hfin u ?_⟩
    rw [h8, sub_self, rms_norm, (norm_eq_zero_iff _).2 rfl, zero_div]
    positivity

end

/-- The hypotheses of `C128_called_flux_limit` are met. -/
example {co : Const} (hc : 0 < co.c) {η : ℝ} (hη : 0 < η) := C128_called_flux_limit (d := 1) (by decide) (period := 1) (fun _ => one_ne_zero) one_pos one_pos demoEpsilon_absorbs two_pos (S := demoSource)
  (E := demoField) (fun _ _ => rfl) (fun _ => hasSeries_add (hasSeries_single 1 _ _) (hasSeries_single 1 _ _)) (by norm_num) demoEpsilon_bounded hc hη

end Verif.Problem
