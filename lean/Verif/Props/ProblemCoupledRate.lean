import Verif.Props.SolverCoupledRate
import Verif.Props.ProblemCoupled
import Verif.Props.ProblemRounding

/-!
# C90, C117, C120: from the arguments to what `solve` returns, for materials with magneto-electric coupling
-/

namespace Verif.Problem

open Verif Verif.Fourier Verif.Backend Verif.Solver Verif.Construct Complex Matrix
open Verif.Assign (toMatrixField)
open Verif.Spec.Solver (CoupledEquation AbsorbingCoupled absorbed Within)

theorem zero_of_coupled {d : ℕ} {g : Grid.Obj d ℝ} (hs : ∀ a, g.step a ≠ 0) {k0 : ℝ} (hk0 : k0 ≠ 0) {m : Medium 3 g.shape} (hinv : ∀ x, IsUnit (m.mu x).det) {S : Solver.Field 3 g.shape}
    (h : CoupledEquation (kOf g) k0 m.epsilon m.xi m.zeta m.mu S 0) : S = 0 := by
  rw [coupled_iff hk0 (C31_backend g hs hk0) hinv, smul_zero] at h
  rw [← h]
  have hL := curl_isLinear (n := 3) (m := 3) (backendK g k0)
  unfold coupledOp
  rw [hL.map_zero, (mulField_isLinear _).map_zero, (mulField_isLinear _).map_zero, (mulField_isLinear _).map_zero, (mulField_isLinear _).map_zero, hL.map_zero, sub_zero, sub_zero, sub_zero]

variable {d : ℕ} {co : Const} {p : Args d} {m : Medium 3 p.grid.shape} {S : Solver.Field 3 p.grid.shape} (h : Describes co 3 p m S 0)
  (hvec : p.source.isVectorial (List.ofFn p.grid.shape) (p.currentFactor co) = true) (hs : ∀ a, p.grid.step a ≠ 0) (hk0 : 0 < p.frequency.k0 co.c)
  (hd : d ≤ 3) (o : Optimum) (tol : ℝ) (hmag : foundMagnetic (toMatrixField d p.xi) (toMatrixField d p.zeta) (toMatrixField d p.mu) = true)
  (hinv : ∀ x, IsUnit (m.mu x).det) (hv : o.vec.2 ≠ 0) (hS : S ≠ 0)
include h hvec hs hk0 hmag hinv hv hS

/-- **C90 (as called, coupled).** For all arguments that describe a material that is found to be magnetic, with any coupling and permeability, so that with the coupling exchanged it absorbs, a source, and the default
initial field: for every tolerance `solve` returns after a finite number of iterations, with a field of which the relative distance to the solution is at most a constant times the tolerance. -/
theorem C90_called_coupled (habs : AbsorbingCoupled m.exchanged.epsilon m.exchanged.xi m.exchanged.zeta m.exchanged.mu) :
    ∃ s E, p.start co tol o = .ok ⟨3, s⟩ ∧ CoupledEquation (kOf p.grid) (p.frequency.k0 co.c) m.exchanged.epsilon m.exchanged.xi m.exchanged.zeta m.exchanged.mu S E ∧
      SolvesFor (.vectorial hd) (backendK p.grid (p.frequency.k0 co.c)) (p.frequency.k0 co.c) s E := by
  obtain ⟨s, E, h1, h2, h3, -, h4⟩ := C86_coupled h hvec hs hk0 hd o tol hmag hinv hv habs
  refine ⟨s, E, h1, h3, solvesFor hk0.ne' h4 (unused_vectorial h hvec o tol h1) h2 fun h0 => hS ?_⟩
  rw [h0] at h3
  exact zero_of_coupled hs hk0.ne' (m := m.exchanged) hinv h3

variable {δ : ℝ} (hδ : 0 < δ)
include hδ

section
variable (habs : ∀ x e h, δ * ∑ i, ‖e i‖ ^ 2 ≤ absorbed (m.exchanged.epsilon x) (m.exchanged.xi x) (m.exchanged.zeta x) (m.exchanged.mu x) e h)
include habs

/-- **C117, C120 (as called, coupled).** If moreover it absorbs at least `δ` of the electric field at every point: `solve` returns the solution within the number of iterations for the bias that is selected, which exceeds
the contrast of the material by at least 0.05 times the inverse permeability that the optimizer returns, with or without rounding errors. -/
theorem C120_called_coupled : ∃ (s : State 3 p.grid.shape) (E : Solver.Field 3 p.grid.shape), p.start co tol o = .ok ⟨3, s⟩ ∧
      CoupledEquation (kOf p.grid) (p.frequency.k0 co.c) m.exchanged.epsilon m.exchanged.xi m.exchanged.zeta m.exchanged.mu S E ∧
      m.contrastMagnetic p.grid.step (p.frequency.k0 co.c) o.vec + 0.05 * o.vec.2 ^ 2 ≤ s.alpha.im * o.vec.2 ^ 2 ∧
      SolvesWithin (.vectorial hd) (backendK p.grid (p.frequency.k0 co.c)) (p.frequency.k0 co.c) s E (s.alpha.im * o.vec.2 ^ 2)
        (m.contrastMagnetic p.grid.step (p.frequency.k0 co.c) o.vec) δ ∧
      SolvesRounded (.vectorial hd) (backendK p.grid (p.frequency.k0 co.c)) (p.frequency.k0 co.c) s E (s.alpha.im * o.vec.2 ^ 2)
        (m.contrastMagnetic p.grid.step (p.frequency.k0 co.c) o.vec) δ := by
  have hc := C86_construct h tol o
  rw [hmag, if_pos rfl] at hc
  have hst := start_vectorial hvec o tol hc
  obtain ⟨E, hE, hcon, hconv⟩ := C120_coupled hs hk0 hd hinv p.thickness hv hδ habs S (fun c x => (0 : Solver.Field 3 p.grid.shape) c x * ((p.frequency.k0 co.c ^ 2 : ℝ) : ℂ))
  have h0 := contrastMagnetic_nonneg m p.grid.step hk0 hv
  have hσ := contrastMagnetic_bias m p.grid.step (p.frequency.k0 co.c) p.thickness o.vec
  have hb : 0 < 0.05 * o.vec.2 ^ 2 := by positivity
  have hE0 : E ≠ 0 := fun h0 => hS (by
    rw [h0] at hE
    exact zero_of_coupled hs hk0.ne' (m := m.exchanged) hinv hE)
  have hlt := lt_of_lt_of_le (lt_add_of_pos_right _ hb) hσ
  refine ⟨_, E, hst, hE, hσ, fun rtol hr maxiter i hi => ?_, ?_⟩
  · exact C117_count hk0.ne' (h0.trans_lt hlt) hlt hδ hconv (by rw [unused_vectorial h hvec o tol hst]; exact WithTop.coe_lt_top _) (getE_initial hk0.ne' _ _ _ _ _ _) hE0 hr maxiter hi
  · exact C120_count hk0.ne' (h0.trans_lt hlt) hlt hδ hcon (by rw [unused_vectorial h hvec o tol hst]) (getE_initial hk0.ne' _ _ _ _ _ _) hE0

end

/-- **C117, C120 (as called, chiral).** For reciprocal coupling this is the material that is given. -/
theorem C120_called_chiral (hx : ∀ x, m.xi x * (m.mu x)⁻¹ = - ((m.mu x)⁻¹ * m.zeta x))
    (habs : ∀ x e h, δ * ∑ i, ‖e i‖ ^ 2 ≤ absorbed (m.epsilon x) (m.xi x) (m.zeta x) (m.mu x) e h) :
    ∃ (s : State 3 p.grid.shape) (E : Solver.Field 3 p.grid.shape), p.start co tol o = .ok ⟨3, s⟩ ∧
      CoupledEquation (kOf p.grid) (p.frequency.k0 co.c) m.epsilon m.xi m.zeta m.mu S E ∧
      m.contrastMagnetic p.grid.step (p.frequency.k0 co.c) o.vec + 0.05 * o.vec.2 ^ 2 ≤ s.alpha.im * o.vec.2 ^ 2 ∧
      SolvesWithin (.vectorial hd) (backendK p.grid (p.frequency.k0 co.c)) (p.frequency.k0 co.c) s E (s.alpha.im * o.vec.2 ^ 2)
        (m.contrastMagnetic p.grid.step (p.frequency.k0 co.c) o.vec) δ ∧
      SolvesRounded (.vectorial hd) (backendK p.grid (p.frequency.k0 co.c)) (p.frequency.k0 co.c) s E (s.alpha.im * o.vec.2 ^ 2)
        (m.contrastMagnetic p.grid.step (p.frequency.k0 co.c) o.vec) δ := by
  have := C120_called_coupled h hvec hs hk0 hd o tol hmag hinv hv hS hδ
  rw [exchanged_reciprocal hinv hx] at this
  exact this habs

/-- **C117 (as called, coupled, without boundary).** Without absorbing layers, the number of iterations follows from any bounds on the contrast of the tensors, the absorption, the sampling, and the inverse permeability that the
optimizer returns. -/
theorem C117_called_coupled (habs : ∀ x e h, δ * ∑ i, ‖e i‖ ^ 2 ≤ absorbed (m.exchanged.epsilon x) (m.exchanged.xi x) (m.exchanged.zeta x) (m.exchanged.mu x) e h) (hthick : p.thickness = [])
    {sE sM sEH sHE : ℝ} (h1 : 0 ≤ sE) (h2 : 0 ≤ sM) (h3 : 0 ≤ sEH) (h4 : 0 ≤ sHE) (w1 : Within (fun x => m.epsilonPrime x - ((o.vec.1 * o.vec.2 ^ 2 : ℝ) : ℂ) • 1) sE)
    (w2 : Within (fun x => (m.mu x)⁻¹ - ((o.vec.2 ^ 2 : ℝ) : ℂ) • 1) sM) (w3 : Within (fun x => (-I) • (m.xi x * (m.mu x)⁻¹)) sEH) (w4 : Within (fun x => I • ((m.mu x)⁻¹ * m.zeta x)) sHE) {c : ℝ}
    (hc : sE + sigmaD p.grid.step (p.frequency.k0 co.c) ^ 2 * sM + sigmaD p.grid.step (p.frequency.k0 co.c) * (sEH + sHE) = c) :
    ∃ (s : State 3 p.grid.shape) (E : Solver.Field 3 p.grid.shape), p.start co tol o = .ok ⟨3, s⟩ ∧
      CoupledEquation (kOf p.grid) (p.frequency.k0 co.c) m.exchanged.epsilon m.exchanged.xi m.exchanged.zeta m.exchanged.mu S E ∧
      SolvesWithin (.vectorial hd) (backendK p.grid (p.frequency.k0 co.c)) (p.frequency.k0 co.c) s E (c + 0.05 * o.vec.2 ^ 2) c δ := by
  have hcon := C86_construct h tol o
  rw [hmag, if_pos rfl, hthick] at hcon
  have hst := start_vectorial hvec o tol hcon
  obtain ⟨E, hE, -, hconv⟩ := C120_coupled hs hk0 hd hinv [] hv hδ habs S (fun c x => (0 : Solver.Field 3 p.grid.shape) c x * ((p.frequency.k0 co.c ^ 2 : ℝ) : ℂ))
  have h0 := contrastMagnetic_nonneg m p.grid.step hk0 hv
  have hle := contrastMagnetic_le m p.grid.step hk0 hv h1 h2 h3 h4 w1 w2 w3 w4
  rw [hc] at hle
  rw [contrastMagnetic_open] at hconv
  have hb : 0 < 0.05 * o.vec.2 ^ 2 := by positivity
  have hE0 : E ≠ 0 := fun h0 => hS (by
    rw [h0] at hE
    exact zero_of_coupled hs hk0.ne' (m := m.exchanged) hinv hE)
  refine ⟨_, E, hst, hE, fun rtol hr maxiter i hi => ?_⟩
  exact C117_count hk0.ne' (by linarith) (by linarith) hδ (hconv.mono (rateOf_mono hb h0 hle hδ) (rateOf_lt_one (by linarith) (by linarith) hδ))
    (by rw [unused_vectorial h hvec o tol hst]; exact WithTop.coe_lt_top _) (getE_initial hk0.ne' _ _ _ _ _ _) hE0 hr maxiter hi

omit h hvec hs hk0 hmag hinv hv hS hδ

/-- The chiral material with the default initial field. -/
noncomputable def quietChiral : Args 1 := { chiralArgs with initial := ⟨[], fun _ => 0⟩ }

theorem quietChiral_describes (co : Const) : Describes co 3 quietChiral chiralMedium (fun _ _ => 1) 0 :=
  { chiral_describes co with
    initial := fun a => .inr ((constant_field 0).1 a)
    initialValue := fun c x => ((constant_field 0).2 _).symm }

theorem chiral_found : foundMagnetic (toMatrixField 1 (⟨[], fun _ => I⟩ : Assign.Arr ℂ)) (toMatrixField 1 chiralArgs.zeta) (toMatrixField 1 chiralArgs.mu) = true := by
  have : ¬ closeTo (toMatrixField 1 (⟨[], fun _ => I⟩ : Assign.Arr ℂ)) 0 := fun h => by
    have := h (fun _ => 0) fun a => by rw [(constant_field I).1 a]; exact Nat.one_pos
    rw [(constant_field I).2, sub_zero, norm_zero, norm_I] at this
    norm_num at this
  unfold foundMagnetic
  rw [Bool.not_eq_true', decide_eq_false_iff_not]
  exact fun h => this h.1

theorem chiral_invertible : ∀ x, IsUnit (chiralMedium.mu x).det := fun x => by
  change IsUnit ((2 : ℂ) • (1 : Matrix (Fin 3) (Fin 3) ℂ)).det
  simp

theorem chiral_reciprocal : ∀ x, chiralMedium.xi x * (chiralMedium.mu x)⁻¹ = - ((chiralMedium.mu x)⁻¹ * chiralMedium.zeta x) := fun x => by
  change (I • (1 : Matrix (Fin 3) (Fin 3) ℂ)) * ((2 : ℂ) • (1 : Matrix (Fin 3) (Fin 3) ℂ))⁻¹ = -(((2 : ℂ) • (1 : Matrix (Fin 3) (Fin 3) ℂ))⁻¹ * (-I) • (1 : Matrix (Fin 3) (Fin 3) ℂ))
  rw [Matrix.smul_mul, Matrix.one_mul, Matrix.mul_smul, Matrix.mul_one, neg_smul, neg_neg]

theorem chiral_absorbs (x : Idx demoGrid.shape) (e h : Fin 3 → ℂ) :
    1 * ∑ i, ‖e i‖ ^ 2 ≤ absorbed (chiralMedium.epsilon x) (chiralMedium.xi x) (chiralMedium.zeta x) (chiralMedium.mu x) e h := by
  change _ ≤ absorbed ((if (x 0).val = 0 then 1 + I else 2 + I : ℂ) • (1 : Matrix (Fin 3) (Fin 3) ℂ) + (if (x 0).val = 0 then 0 else I : ℂ) • 1) (I • 1) ((-I) • 1) ((2 : ℂ) • 1) e h
  have h1 : star h ⬝ᵥ e = star (star e ⬝ᵥ h) := Matrix.star_dotProduct _ _
  have h2 : 0 ≤ ∑ i, ‖e i‖ ^ 2 := Finset.sum_nonneg fun i _ => sq_nonneg _
  simp only [absorbed, ← add_smul, Matrix.smul_mulVec, Matrix.one_mulVec, dotProduct_add, dotProduct_smul, smul_eq_mul, h1, star_dot_self]
  split_ifs
  · simp only [add_im, mul_im, add_re, one_re, I_re, one_im, I_im, ofReal_re, ofReal_im, RCLike.star_def, conj_im, conj_re, neg_im, neg_re, re_ofNat, im_ofNat, zero_re, zero_im]
    linarith
  · simp only [add_im, mul_im, add_re, one_re, I_re, one_im, I_im, ofReal_re, ofReal_im, RCLike.star_def, conj_im, conj_re, neg_im, neg_re, re_ofNat, im_ofNat]
    linarith

theorem chiral_absorbs_exchanged : ∀ (x : Idx demoGrid.shape) (e h : Fin 3 → ℂ), 1 * ∑ i, ‖e i‖ ^ 2 ≤
    absorbed (chiralMedium.exchanged.epsilon x) (chiralMedium.exchanged.xi x) (chiralMedium.exchanged.zeta x) (chiralMedium.exchanged.mu x) e h := by
  rw [exchanged_reciprocal chiral_invertible chiral_reciprocal]
  exact chiral_absorbs

/-- The hypotheses of `C120_called_chiral` are met, and with it those of `C120_called_coupled`, `C90_called_coupled` and `C120_coupled`: a chiral material, whatever the optimizer returns other than 0. -/
example (co : Const) (o : Optimum) (ho : o.vec.2 ≠ 0) : ∃ (s : State 3 demoGrid.shape) (E : Solver.Field 3 demoGrid.shape), quietChiral.start co 1e-8 o = .ok ⟨3, s⟩ ∧
    CoupledEquation (kOf demoGrid) 1 chiralMedium.epsilon chiralMedium.xi chiralMedium.zeta chiralMedium.mu (fun _ _ => 1) E ∧
    chiralMedium.contrastMagnetic demoGrid.step 1 o.vec + 0.05 * o.vec.2 ^ 2 ≤ s.alpha.im * o.vec.2 ^ 2 ∧
    SolvesWithin (.vectorial (show 1 ≤ 3 by decide)) (backendK demoGrid 1) 1 s E (s.alpha.im * o.vec.2 ^ 2) (chiralMedium.contrastMagnetic demoGrid.step 1 o.vec) 1 ∧
    SolvesRounded (.vectorial (show 1 ≤ 3 by decide)) (backendK demoGrid 1) 1 s E (s.alpha.im * o.vec.2 ^ 2) (chiralMedium.contrastMagnetic demoGrid.step 1 o.vec) 1 :=
  C120_called_chiral (quietChiral_describes co) rfl demo_step one_pos (show 1 ≤ 3 by decide) o 1e-8 chiral_found chiral_invertible ho
    (fun h => one_ne_zero (congrFun (congrFun h 0) fun _ => (0 : Fin 2))) one_pos chiral_reciprocal chiral_absorbs

/-- The hypotheses of `C117_called_coupled` are met: the same material without absorbing layers, if the optimizer returns the inverse permeability and a number from 0 to 4. -/
example (co : Const) (o : Optimum) (ho : |o.vec.1 * 2⁻¹ - 1| ≤ 1) (hb : o.vec.2 ^ 2 = 2⁻¹) : ∃ (s : State 3 demoGrid.shape) (E : Solver.Field 3 demoGrid.shape),
    ({ quietChiral with thickness := [] } : Args 1).start co 1e-8 o = .ok ⟨3, s⟩ ∧
    CoupledEquation (kOf demoGrid) 1 chiralMedium.exchanged.epsilon chiralMedium.exchanged.xi chiralMedium.exchanged.zeta chiralMedium.exchanged.mu (fun _ _ => 1) E ∧
    SolvesWithin (.vectorial (show 1 ≤ 3 by decide)) (backendK demoGrid 1) 1 s E (5 + sigmaD demoGrid.step 1 + 0.05 * o.vec.2 ^ 2) (5 + sigmaD demoGrid.step 1) 1 := by
  have hm : ∀ x, (chiralMedium.mu x)⁻¹ = (2 : ℂ)⁻¹ • (1 : Matrix (Fin 3) (Fin 3) ℂ) := fun x => smul_one_inv two_ne_zero
  have e1 : ∀ x, chiralMedium.epsilonPrime x - ((o.vec.1 * o.vec.2 ^ 2 : ℝ) : ℂ) • 1 =
      ((if (x 0).val = 0 then 1 + I else 2 + I : ℂ) + (if (x 0).val = 0 then 0 else I : ℂ) - 2⁻¹ - ((o.vec.1 * 2⁻¹ : ℝ) : ℂ)) • 1 := fun x => by
    rw [epsilonPrime_eq_sub, hm, hb]
    change ((if (x 0).val = 0 then 1 + I else 2 + I : ℂ) • (1 : Matrix (Fin 3) (Fin 3) ℂ) + (if (x 0).val = 0 then 0 else I : ℂ) • 1) - (I • 1) * ((2 : ℂ)⁻¹ • 1 * ((-I) • 1)) - _ = _
    rw [smul_mul_smul_comm, one_mul, smul_mul_smul_comm, one_mul, ← add_smul, ← sub_smul, ← sub_smul]
    congr 1
    linear_combination ((2 : ℂ)⁻¹) * I_sq
  have w1 : Within (fun x => chiralMedium.epsilonPrime x - ((o.vec.1 * o.vec.2 ^ 2 : ℝ) : ℂ) • 1) 5 := by
    simp only [e1]
    refine within_smul_one fun x => ?_
    have h1 : ‖((o.vec.1 * 2⁻¹ - 1 : ℝ) : ℂ)‖ ≤ 1 := by rw [norm_real]; exact ho
    split_ifs
    · calc ‖(1 + I + 0 - 2⁻¹ - ((o.vec.1 * 2⁻¹ : ℝ) : ℂ))‖ = ‖(I - 2⁻¹) - ((o.vec.1 * 2⁻¹ - 1 : ℝ) : ℂ)‖ := by congr 1; push_cast; ring
        _ ≤ (‖I‖ + ‖(2⁻¹ : ℂ)‖) + ‖((o.vec.1 * 2⁻¹ - 1 : ℝ) : ℂ)‖ := (norm_sub_le _ _).trans (add_le_add_left (norm_sub_le _ _) _)
        _ ≤ 5 := by rw [norm_I]; norm_num at *; linarith
    · calc ‖(2 + I + I - 2⁻¹ - ((o.vec.1 * 2⁻¹ : ℝ) : ℂ))‖ = ‖(2⁻¹ + 2 * I) - ((o.vec.1 * 2⁻¹ - 1 : ℝ) : ℂ)‖ := by congr 1; push_cast; ring
        _ ≤ (‖(2⁻¹ : ℂ)‖ + ‖(2 * I : ℂ)‖) + ‖((o.vec.1 * 2⁻¹ - 1 : ℝ) : ℂ)‖ := (norm_sub_le _ _).trans (add_le_add_left (norm_add_le _ _) _)
        _ ≤ 5 := by rw [norm_mul, norm_I]; norm_num at *; linarith
  have w2 : Within (fun x => (chiralMedium.mu x)⁻¹ - ((o.vec.2 ^ 2 : ℝ) : ℂ) • 1) 0 := by
    have : ∀ x, (chiralMedium.mu x)⁻¹ - ((o.vec.2 ^ 2 : ℝ) : ℂ) • 1 = (0 : ℂ) • (1 : Matrix (Fin 3) (Fin 3) ℂ) := fun x => by
      rw [hm, hb, ← sub_smul]
      push_cast
      rw [sub_self]
    simp only [this]
    exact within_smul_one fun x => by rw [norm_zero]
  have w3 : Within (fun x => (-I) • (chiralMedium.xi x * (chiralMedium.mu x)⁻¹)) 2⁻¹ := by
    have : ∀ x, (-I) • (chiralMedium.xi x * (chiralMedium.mu x)⁻¹) = (-I * (I * 2⁻¹)) • (1 : Matrix (Fin 3) (Fin 3) ℂ) := fun x => by
      rw [hm]
      change (-I) • ((I • (1 : Matrix (Fin 3) (Fin 3) ℂ)) * _) = _
      rw [smul_mul_smul_comm, one_mul, smul_smul]
    simp only [this]
    exact within_smul_one fun x => by simp
  have w4 : Within (fun x => I • ((chiralMedium.mu x)⁻¹ * chiralMedium.zeta x)) 2⁻¹ := by
    have : ∀ x, I • ((chiralMedium.mu x)⁻¹ * chiralMedium.zeta x) = (I * (2⁻¹ * -I)) • (1 : Matrix (Fin 3) (Fin 3) ℂ) := fun x => by
      rw [hm]
      change I • (_ * ((-I) • (1 : Matrix (Fin 3) (Fin 3) ℂ))) = _
      rw [smul_mul_smul_comm, one_mul, smul_smul]
    simp only [this]
    exact within_smul_one fun x => by simp
  exact C117_called_coupled (p := { quietChiral with thickness := [] }) (sE := 5) (sM := 0) (sEH := 2⁻¹) (sHE := 2⁻¹) (c := 5 + sigmaD demoGrid.step 1) { quietChiral_describes co with } rfl demo_step one_pos
    (show 1 ≤ 3 by decide) o 1e-8 chiral_found chiral_invertible (fun h0 => by rw [h0] at hb; norm_num at hb)
    (fun h => one_ne_zero (congrFun (congrFun h 0) fun _ => (0 : Fin 2))) one_pos chiral_absorbs_exchanged rfl (by norm_num) le_rfl (by norm_num) (by norm_num) w1 w2 w3 w4 (by
      change 5 + sigmaD demoGrid.step 1 ^ 2 * 0 + sigmaD demoGrid.step 1 * (2⁻¹ + 2⁻¹) = 5 + sigmaD demoGrid.step 1
      ring)

/-- The hypotheses of `C121_coupled_electric` are met, and with it those of `C121_balance`: an error of 10⁻³ in the permittivity of the chiral material. -/
example {S E E' H H' : Solver.Field 3 demoGrid.shape} (hE : Spec.Solver.Coupled (kOf demoGrid) 1 chiralMedium.epsilon chiralMedium.xi chiralMedium.zeta chiralMedium.mu S E H)
    (hE' : Spec.Solver.Coupled (kOf demoGrid) 1 (fun x => chiralMedium.epsilon x + (1e-3 : ℂ) • 1) chiralMedium.xi chiralMedium.zeta chiralMedium.mu S E' H') :
    1 * Backend.norm (E' - E) ≤ 1e-3 * (Backend.norm E' + Backend.norm H') + Backend.norm (S - S) / 1 ^ 2 :=
  have hz : Within (fun _ : Idx demoGrid.shape => (0 : Matrix (Fin 3) (Fin 3) ℂ)) 1e-3 := fun x v => by
    simp only [Matrix.zero_mulVec, Pi.zero_apply, norm_zero]
    norm_num
    positivity
  (C121_coupled_electric one_ne_zero chiral_absorbs hE hE').trans (C121_coupled_size (zeta := chiralMedium.zeta) (zeta' := chiralMedium.zeta) (mu := chiralMedium.mu) (mu' := chiralMedium.mu)
    (by norm_num) (by simp only [add_sub_cancel_left]; exact within_smul_one fun _ => by norm_num) (by simpa using hz) (by simpa using hz) (by simpa using hz) S S E' H').1

/-- The hypotheses of `C121_coupled` are met: a chiral material that absorbs both fields. -/
example : ∀ e h : Fin 3 → ℂ, 1 * (∑ i, ‖e i‖ ^ 2 + ∑ i, ‖h i‖ ^ 2) ≤ absorbed ((2 + I) • (1 : Matrix (Fin 3) (Fin 3) ℂ)) (I • 1) ((-I) • 1) ((3 + I) • 1) e h := by
  intro e h
  have h1 : star h ⬝ᵥ e = star (star e ⬝ᵥ h) := Matrix.star_dotProduct _ _
  simp only [absorbed, Matrix.smul_mulVec, Matrix.one_mulVec, dotProduct_add, dotProduct_smul, smul_eq_mul, h1, star_dot_self]
  simp only [add_im, mul_im, add_re, I_re, I_im, ofReal_re, ofReal_im, RCLike.star_def, conj_im, conj_re, neg_im, neg_re, re_ofNat, im_ofNat]
  linarith

end Verif.Problem
