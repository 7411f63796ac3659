import Verif.Props.RefinementCoupled
import Verif.Props.ProblemRefinement
import Verif.Props.ProblemCoupledRate

/-!
# C128: convergence to the exact solution for magnetic materials and magneto-electric coupling, from the arguments of the constructor
-/

namespace Verif.Problem

open Verif Verif.Fourier Verif.Backend Verif.Solver Verif.Construct Verif.Refinement Complex Matrix
open Verif.Assign (toMatrixField)
open Verif.Spec.Solver (CoupledEquation absorbed)
open Verif.Spec.Continuous (Point)
open Verif.Spec.Refinement

variable {d : ℕ}

/-- The material is a sample of one in space. -/
structure SamplesMedium (g : Grid.Obj d ℝ) (m : Medium 3 g.shape) (epsilon xi zeta mu : Point → Matrix (Fin 3) (Fin 3) ℂ) : Prop where
  epsilon : SampledFrom g epsilon m.epsilon
  xi : SampledFrom g xi m.xi
  zeta : SampledFrom g zeta m.zeta
  mu : SampledFrom g mu m.mu

/-- The arguments describe a problem that is found to be magnetic. -/
structure CalledMagnetic (co : Const) (p : Args d) (m : Medium 3 p.grid.shape) (s E0 : Solver.Field 3 p.grid.shape) (o : Optimum) : Prop where
  describes : Describes co 3 p m s E0
  vectorial : p.source.isVectorial (List.ofFn p.grid.shape) (p.currentFactor co) = true
  found : foundMagnetic (toMatrixField d p.xi) (toMatrixField d p.zeta) (toMatrixField d p.mu) = true
  optimum : o.vec.2 ≠ 0

/-- A permeability that absorbs is invertible. -/
theorem absorbs_invertible {epsilon xi zeta mu : Matrix (Fin 3) (Fin 3) ℂ} {δ : ℝ} (hδ : 0 < δ) (habs : ∀ e h : Fin 3 → ℂ, δ * (∑ i, ‖e i‖ ^ 2 + ∑ i, ‖h i‖ ^ 2) ≤ absorbed epsilon xi zeta mu e h) :
    IsUnit mu.det := by
  rw [← Matrix.isUnit_iff_isUnit_det, ← Matrix.mulVec_injective_iff_isUnit]
  refine (injective_iff_map_eq_zero' (Matrix.mulVecLin mu)).2 fun v => ⟨fun hv => ?_, fun hv => by rw [hv, map_zero]⟩
  rw [Matrix.mulVecLin_apply] at hv
  have h1 := habs 0 v
  simp only [absorbed, hv, Matrix.mulVec_zero, star_zero, zero_dotProduct, dotProduct_add, dotProduct_zero, add_zero, zero_im, Pi.zero_apply, norm_zero] at h1
  have h2 : ∑ i, ‖v i‖ ^ 2 ≤ 0 := by
    have h3 : ∑ _i : Fin 3, (0 : ℝ) ^ 2 = 0 := by simp
    rw [h3, zero_add] at h1
    exact nonpos_of_mul_nonpos_right h1 hδ
  funext i
  have h3 := (Finset.sum_eq_zero_iff_of_nonneg fun i _ => sq_nonneg ‖v i‖).1 (le_antisymm h2 (Finset.sum_nonneg fun i _ => sq_nonneg _)) i (Finset.mem_univ i)
  simpa using h3

section
variable (hd : d ≤ 3) {period : Fin d → ℝ} (hper : ∀ b, period b ≠ 0) {k0 : ℝ} (hk0 : 0 < k0) {epsilon xi zeta mu : Point → Matrix (Fin 3) (Fin 3) ℂ} {δ : ℝ} (hδ : 0 < δ)
  (habs : AbsorbsBothInSpace epsilon xi zeta mu δ) {S E H : Fin 3 → Point → ℂ} (hE : CoupledInSpace k0 epsilon xi zeta mu S E H) {a b : Fin 3 → (Fin d → ℤ) → ℂ}
  (ha : ∀ c, HasFirstSeries period (E c) (a c)) (hb : ∀ c, HasFirstSeries period (H c) (b c))

omit hd in
theorem exchanged_absorbs (hd : d ≤ 3) (habs : AbsorbsBothInSpace epsilon xi zeta mu δ) {g : Grid.Obj d ℝ} {m : Medium 3 g.shape} (hm : SamplesMedium g m epsilon xi zeta mu) (x : Idx g.shape)
    (e h : Fin 3 → ℂ) : δ * (∑ i, ‖e i‖ ^ 2 + ∑ i, ‖h i‖ ^ 2) ≤ absorbed (m.epsilon x) (m.xi x) (m.zeta x) (m.mu x) e h := by
  obtain ⟨ρ, hρ⟩ := Continuous.exists_atSample hd g x
  rw [hm.epsilon x ρ hρ, hm.xi x ρ hρ, hm.zeta x ρ hρ, hm.mu x ρ hρ]
  exact habs ρ e h

include hper hk0 hδ habs hE ha hb

/-- **C128 (as called, coupled).** If the arguments are samples of any material that is found to be magnetic, and if the material with the exchanged coupling is a sample of one in space that absorbs both fields a little,
then the constructor succeeds, and the iteration converges to a field that differs from the exact solution for the latter by at most the terms that the grid cannot resolve. -/
theorem C128_called_coupled {co : Const} {p : Args d} {m : Medium 3 p.grid.shape} {s E0 : Solver.Field 3 p.grid.shape} {o : Optimum} (h : CalledMagnetic co p m s E0 o)
    (hm : SamplesMedium p.grid m.exchanged epsilon xi zeta mu) (hw : p.frequency.k0 co.c = k0) (hL : ∀ b, p.grid.shape b * p.grid.step b = period b) (hsf : ∀ c, SampledFrom p.grid (S c) (s c)) (tol : ℝ)
    {F : Solver.Field 3 p.grid.shape} (hF : ∀ c, SampledFrom p.grid (E c) (F c)) :
    ∃ t E', p.start co tol o = .ok ⟨3, t⟩ ∧ ConvergesTo (.vectorial hd) (backendK p.grid k0) k0 t E' ∧
      rms (E' - F) ≤ 2 * Real.sqrt 3 / (k0 * δ) * Real.sqrt ((∑ c, firstRemainder p.grid.shape period (a c)) ^ 2 + (∑ c, firstRemainder p.grid.shape period (b c)) ^ 2) := by
  have hs : ∀ b, p.grid.step b ≠ 0 := fun b h0 => hper b (by rw [← hL b, h0, mul_zero])
  have hab := exchanged_absorbs hd habs hm
  have hinv : ∀ x, IsUnit (m.mu x).det := fun x => absorbs_invertible hδ (hab x)
  obtain ⟨t, E', h1, -, ⟨H', h3⟩, -, h4⟩ := C86_coupled h.describes h.vectorial hs (by rw [hw]; exact hk0) hd o tol h.found hinv h.optimum ⟨δ, hδ, fun x e f =>
    (mul_le_mul_of_nonneg_left (le_add_of_nonneg_right (Finset.sum_nonneg fun i _ => sq_nonneg _)) hδ.le).trans (hab x e f)⟩
  rw [hw] at h3 h4
  obtain ⟨G, hG⟩ : ∃ G : Solver.Field 3 p.grid.shape, ∀ c, SampledFrom p.grid (H c) (G c) := by
    choose G hG using fun c => sampled_of_extruded hd p.grid (hasFirst_extruded (hb c))
    exact ⟨G, hG⟩
  refine ⟨t, E', h1, h4.tendsto, le_trans ?_ (C128_coupled_error hd hs h.describes.nonempty hL hk0 hδ habs hE ha hb hm.epsilon hm.xi hm.zeta hm.mu hsf h3 hF hG)⟩
  exact Real.le_sqrt_of_sq_le (le_add_of_nonneg_right (sq_nonneg _))

/-- **C128 (as called, chiral).** For reciprocal coupling, and so for all magnetic materials without coupling, this is the material that is given. -/
theorem C128_called_chiral {co : Const} {p : Args d} {m : Medium 3 p.grid.shape} {s E0 : Solver.Field 3 p.grid.shape} {o : Optimum} (h : CalledMagnetic co p m s E0 o)
    (hm : SamplesMedium p.grid m epsilon xi zeta mu) (hx : ∀ r, xi r * (mu r)⁻¹ = -((mu r)⁻¹ * zeta r)) (hw : p.frequency.k0 co.c = k0) (hL : ∀ b, p.grid.shape b * p.grid.step b = period b)
    (hsf : ∀ c, SampledFrom p.grid (S c) (s c)) (tol : ℝ) {F : Solver.Field 3 p.grid.shape} (hF : ∀ c, SampledFrom p.grid (E c) (F c)) :
    ∃ t E', p.start co tol o = .ok ⟨3, t⟩ ∧ ConvergesTo (.vectorial hd) (backendK p.grid k0) k0 t E' ∧
      rms (E' - F) ≤ 2 * Real.sqrt 3 / (k0 * δ) * Real.sqrt ((∑ c, firstRemainder p.grid.shape period (a c)) ^ 2 + (∑ c, firstRemainder p.grid.shape period (b c)) ^ 2) := by
  have hinv : ∀ x, IsUnit (m.mu x).det := fun x => absorbs_invertible hδ (exchanged_absorbs hd habs hm x)
  refine C128_called_coupled hd hper hk0 hδ habs hE ha hb h ?_ hw hL hsf tol hF
  rw [exchanged_reciprocal hinv fun x => by
    obtain ⟨ρ, hρ⟩ := Continuous.exists_atSample hd p.grid x
    rw [hm.xi x ρ hρ, hm.mu x ρ hρ, hm.zeta x ρ hρ]
    exact hx ρ]
  exact hm

/-- **C128 (as called, coupled, limit).** For every error there is a number of samples and, for all arguments with at least that many samples of the same problem in space, a number of iterations, after which the
electric field differs less from the exact solution. -/
theorem C128_called_coupled_limit {η : ℝ} (hη : 0 < η) : ∃ M : ℕ, ∀ (co : Const) (p : Args d) (m : Medium 3 p.grid.shape) (s E0 : Solver.Field 3 p.grid.shape) (o : Optimum), CalledMagnetic co p m s E0 o →
    SamplesMedium p.grid m.exchanged epsilon xi zeta mu → p.frequency.k0 co.c = k0 → (∀ b, p.grid.shape b * p.grid.step b = period b) → (∀ c, SampledFrom p.grid (S c) (s c)) →
    (∀ b, M ≤ p.grid.shape b) → ∀ (tol : ℝ) (F : Solver.Field 3 p.grid.shape), (∀ c, SampledFrom p.grid (E c) (F c)) →
      ∃ t, p.start co tol o = .ok ⟨3, t⟩ ∧ ∃ j0, ∀ i ≥ j0, (∃ u, run (.vectorial hd) (backendK p.grid k0) t i = .ok u ∧ rms (getE k0 u - F) < η) ∨
        (run (.vectorial hd) (backendK p.grid k0) t i = .error .zeroDivision ∧ ∃ j < i, ∃ u, run (.vectorial hd) (backendK p.grid k0) t j = .ok u ∧ rms (getE k0 u - F) < η) := by
  have hη2 : 0 < η / 2 := by linarith
  obtain ⟨M, hM⟩ := C128_coupled_limit hd hk0 hδ habs hE ha hb hη2
  refine ⟨M, fun co p m s E0 o h hm hw hL hsf hMp tol F hF => ?_⟩
  have hs : ∀ b, p.grid.step b ≠ 0 := fun b h0 => hper b (by rw [← hL b, h0, mul_zero])
  have hab := exchanged_absorbs hd habs hm
  have hinv : ∀ x, IsUnit (m.mu x).det := fun x => absorbs_invertible hδ (hab x)
  obtain ⟨t, E', h1, -, ⟨H', h3⟩, -, h4⟩ := C86_coupled h.describes h.vectorial hs (by rw [hw]; exact hk0) hd o tol h.found hinv h.optimum ⟨δ, hδ, fun x e f =>
    (mul_le_mul_of_nonneg_left (le_add_of_nonneg_right (Finset.sum_nonneg fun i _ => sq_nonneg _)) hδ.le).trans (hab x e f)⟩
  rw [hw] at h3 h4
  choose G hG using fun c => sampled_of_extruded hd p.grid (hasFirst_extruded (hb c))
  have h5 := (hM p.grid hs h.describes.nonempty hMp hL _ _ _ _ s E' H' F G hm.epsilon hm.xi hm.zeta hm.mu hsf h3 hF hG).1
  have hP : 0 < Real.sqrt (∏ b, (p.grid.shape b : ℝ)) := Real.sqrt_pos.2 (Finset.prod_pos fun b _ => by exact_mod_cast h.describes.nonempty b)
  obtain ⟨j0, hj⟩ := h4.tendsto (η / 2 * Real.sqrt (∏ b, (p.grid.shape b : ℝ))) (by positivity)
  refine ⟨t, h1, j0, fun i hi => ?_⟩
  rcases hj i hi with ⟨u, h6, h7⟩ | ⟨h6, j, hji, u, h7, h8⟩
  · refine .inl ⟨u, h6, (rms_triangle (getE k0 u) E' F).trans_lt ?_⟩
    have h8 : rms (E' - getE k0 u) < η / 2 := by
      rw [rms_norm, norm_rev, div_lt_iff₀ hP]
      exact h7
    linarith
  · exact .inr ⟨h6, j, hji, u, h7, by rw [h8]; linarith⟩

end

/-! ### Cases -/

/-- A uniform chiral material that absorbs electric and magnetic fields. -/
noncomputable def lossyArgs : Args 1 := { uniformArgs true with xi := ⟨[], fun _ => I⟩, zeta := ⟨[], fun _ => -I⟩, mu := ⟨[], fun _ => 2 + I⟩ }

noncomputable def lossyMedium : Medium 3 demoGrid.shape := ⟨fun _ => (1 + I) • 1, fun _ => I • 1, fun _ => (-I) • 1, fun _ => (2 + I : ℂ) • 1⟩

theorem lossy_describes (co : Const) : Describes co 3 lossyArgs lossyMedium (fun _ _ => 1) (fun _ _ => 3) where
  nonempty := (uniform_describes true 3 co).nonempty
  epsilon := (uniform_describes true 3 co).epsilon
  magnetic := rfl
  xi := constant_means 3 I
  zeta := constant_means 3 (-I)
  mu := constant_means 3 (2 + I)
  source := (uniform_describes true 3 co).source
  sourceValue := (uniform_describes true 3 co).sourceValue
  initial := (uniform_describes true 3 co).initial
  initialValue := (uniform_describes true 3 co).initialValue

theorem lossy_called (co : Const) {o : Optimum} (ho : o.vec.2 ≠ 0) : CalledMagnetic co lossyArgs lossyMedium (fun _ _ => 1) (fun _ _ => 3) o where
  describes := lossy_describes co
  vectorial := rfl
  found := by
    have : ¬ closeTo (toMatrixField 1 (⟨[], fun _ => I⟩ : Assign.Arr ℂ)) 0 := fun h => by
      have := h (fun _ => 0) fun a => by rw [(constant_field I).1 a]; exact Nat.one_pos
      rw [(constant_field I).2, sub_zero, norm_zero, norm_I] at this
      norm_num at this
    unfold foundMagnetic
    rw [Bool.not_eq_true', decide_eq_false_iff_not]
    exact fun h => this h.1
  optimum := ho

theorem lossy_absorbs : AbsorbsBothInSpace (fun _ => (1 + I) • 1) (fun _ => I • 1) (fun _ => (-I) • 1) (fun _ => (2 + I : ℂ) • 1) 1 := fun r e h => by
  have h1 : star h ⬝ᵥ e = star (star e ⬝ᵥ h) := Matrix.star_dotProduct _ _
  simp only [Matrix.smul_mulVec, Matrix.one_mulVec, dotProduct_add, dotProduct_smul, smul_eq_mul, h1, star_dot_self]
  simp only [add_im, mul_im, add_re, mul_re, one_re, I_re, one_im, I_im, ofReal_re, ofReal_im, RCLike.star_def, conj_im, conj_re, neg_im, neg_re, re_ofNat, im_ofNat]
  linarith

/-- The hypotheses of `C128_called_chiral`, and with it those of `C128_called_coupled` and `C128_called_coupled_limit`, are met: the electric field is that of the uniform solution of Maxwell's equations. -/
example (co : Const) (o : Optimum) (ho : o.vec.2 ≠ 0) (E H : ℂ) (h1 : -I * E + (2 + I) * H = 0) (h2 : (1 + I) * E + I * H = -1) :
    ∃ t E', lossyArgs.start co 1e-8 o = .ok ⟨3, t⟩ ∧ ConvergesTo (.vectorial (show 1 ≤ 3 by decide)) (backendK demoGrid 1) 1 t E' ∧ rms (E' - fun _ _ => E) ≤ 2 * Real.sqrt 3 / (1 * 1) *
      Real.sqrt ((∑ _c : Fin 3, firstRemainder demoGrid.shape (fun _ => 2) (Pi.single 0 E)) ^ 2 + (∑ _c : Fin 3, firstRemainder demoGrid.shape (fun _ => 2) (Pi.single 0 H)) ^ 2) := by
  have h0 : ∀ z : ℂ, HasFirstSeries (d := 1) (fun _ => 2) (fun _ => z) (Pi.single 0 z) := fun z => by
    have h := hasSeries_first (hasSeries_single (d := 1) (fun _ => 2) 0 z)
    have h2 : ∀ r, Spec.Continuous.wave (harmonic (d := 1) (fun _ => 2) 0) r = 1 := fun r => by
      have : harmonic (d := 1) (fun _ => 2) 0 = 0 := by
        funext c
        unfold harmonic
        split_ifs <;> simp
      rw [this]
      simp [Spec.Continuous.wave]
    simpa only [h2, mul_one] using h
  have hc : ∀ (z : ℂ) c r, Spec.Continuous.curl (fun (_ : Fin 3) (_ : Point) => z) c r = 0 := fun z c r => by
    have h0 : ∀ c r (z : ℂ), Spec.Continuous.partialDeriv c (fun _ => z) r = 0 := fun c r z => deriv_const _ _
    unfold Spec.Continuous.curl
    fin_cases c <;> simp only [h0] <;> simp
  refine C128_called_chiral (by decide) (fun _ => two_ne_zero) one_pos one_pos lossy_absorbs (S := fun _ _ => 1) (E := fun _ _ => E) (H := fun _ _ => H) ⟨fun c r => ?_, fun c r => ?_⟩ (fun _ => h0 E)
    (fun _ => h0 H) (lossy_called co ho) ⟨fun _ _ _ => rfl, fun _ _ _ => rfl, fun _ _ _ => rfl, fun _ _ _ => rfl⟩ (fun r => ?_) rfl (fun _ => mul_one _) (fun _ _ _ _ => rfl) 1e-8 fun _ _ _ _ => rfl
  · rw [hc]
    simp only [Matrix.smul_mulVec, Matrix.one_mulVec, Pi.smul_apply, smul_eq_mul]
    rw [h1, mul_zero]
  · rw [hc]
    simp only [Matrix.smul_mulVec, Matrix.one_mulVec, Pi.smul_apply, smul_eq_mul]
    rw [h2]
    push_cast
    ring
  · rw [Matrix.smul_mul, Matrix.one_mul, Matrix.mul_smul, Matrix.mul_one, neg_smul, neg_neg]

/-- There is such a solution. -/
example : ∃ E H : ℂ, E ≠ 0 ∧ -I * E + (2 + I) * H = 0 ∧ (1 + I) * E + I * H = -1 := by
  have hz : (3 * I : ℂ) ≠ 0 := mul_ne_zero (by norm_num) I_ne_zero
  refine ⟨-(2 + I) / (3 * I), -I / (3 * I), ?_, ?_, ?_⟩
  · refine div_ne_zero (neg_ne_zero.2 fun h => ?_) hz
    simpa using congrArg Complex.re h
  · field_simp
    ring
  · field_simp
    linear_combination (-2 : ℂ) * I_sq

end Verif.Problem
