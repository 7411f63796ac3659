import Verif.Props.SolverCoupled
import Verif.Props.ProblemExamples

/-!
# C86, C89: from the arguments to the solution, for materials with magneto-electric coupling
-/

namespace Verif.Problem

open Verif Verif.Fourier Verif.Backend Verif.Solver Verif.Construct Complex Matrix
open Verif.Assign (toMatrixField)
open Verif.Spec.Solver (CoupledEquation AbsorbingCoupled absorbed)

variable {d : ℕ} {co : Const} {p : Args d} {m : Medium 3 p.grid.shape} {S E0 : Solver.Field 3 p.grid.shape} (h : Describes co 3 p m S E0)
  (hvec : p.source.isVectorial (List.ofFn p.grid.shape) (p.currentFactor co) = true) (hs : ∀ a, p.grid.step a ≠ 0) (hk0 : 0 < p.frequency.k0 co.c)
  (hd : d ≤ 3) (o : Optimum) (tol : ℝ) (hmag : foundMagnetic (toMatrixField d p.xi) (toMatrixField d p.zeta) (toMatrixField d p.mu) = true)
  (hinv : ∀ x, IsUnit (m.mu x).det) (hv : o.vec.2 ≠ 0)
include h hvec hs hk0 hmag hinv hv

/-- **C86 (vectorial, coupled).** For any material that is found to be magnetic, with any coupling and permeability: the iteration converges exponentially to the only solution of Maxwell's
equations for the material with exchanged coupling, provided that the latter absorbs. -/
theorem C86_coupled (habs : AbsorbingCoupled m.exchanged.epsilon m.exchanged.xi m.exchanged.zeta m.exchanged.mu) :
    ∃ s E, p.start co tol o = .ok ⟨3, s⟩ ∧ getE (p.frequency.k0 co.c) s = E0 ∧
      CoupledEquation (kOf p.grid) (p.frequency.k0 co.c) m.exchanged.epsilon m.exchanged.xi m.exchanged.zeta m.exchanged.mu S E ∧
      (∀ E', CoupledEquation (kOf p.grid) (p.frequency.k0 co.c) m.exchanged.epsilon m.exchanged.xi m.exchanged.zeta m.exchanged.mu S E' → E' = E) ∧
      ConvergesExponentially (.vectorial hd) (backendK p.grid (p.frequency.k0 co.c)) (p.frequency.k0 co.c) s E := by
  have hc := C86_construct h tol o
  rw [hmag, if_pos rfl] at hc
  obtain ⟨E, hE, hu, hconv⟩ := C89_absorbing hs hk0 hd hinv p.thickness hv habs S (fun c x => E0 c x * ((p.frequency.k0 co.c ^ 2 : ℝ) : ℂ))
  exact ⟨_, E, start_vectorial hvec o tol hc, getE_initial hk0.ne' _ _ _ _ _ _, hE, hu, hconv⟩

/-- **C86 (vectorial, chiral).** For reciprocal coupling this is the material that is given. -/
theorem C86_chiral (hx : ∀ x, m.xi x * (m.mu x)⁻¹ = - ((m.mu x)⁻¹ * m.zeta x)) (habs : AbsorbingCoupled m.epsilon m.xi m.zeta m.mu) :
    ∃ s E, p.start co tol o = .ok ⟨3, s⟩ ∧ getE (p.frequency.k0 co.c) s = E0 ∧
      CoupledEquation (kOf p.grid) (p.frequency.k0 co.c) m.epsilon m.xi m.zeta m.mu S E ∧
      (∀ E', CoupledEquation (kOf p.grid) (p.frequency.k0 co.c) m.epsilon m.xi m.zeta m.mu S E' → E' = E) ∧
      ConvergesExponentially (.vectorial hd) (backendK p.grid (p.frequency.k0 co.c)) (p.frequency.k0 co.c) s E := by
  have e := exchanged_reciprocal hinv hx
  have := C86_coupled h hvec hs hk0 hd o tol hmag hinv hv
  rw [e] at this
  exact this habs

omit h hvec hs hk0 hmag hinv hv

/-- A chiral material with absorption. -/
noncomputable def chiralArgs : Args 1 := { demoArgs true with xi := ⟨[], fun _ => I⟩, zeta := ⟨[], fun _ => -I⟩ }

noncomputable def chiralMedium : Medium 3 demoGrid.shape := { demoMedium 3 with xi := fun _ => I • 1, zeta := fun _ => (-I) • 1 }

theorem chiral_describes (co : Const) : Describes co 3 chiralArgs chiralMedium (fun _ _ => 1) (fun _ _ => 3) where
  nonempty := (demo_describes true 3 co).nonempty
  epsilon := (demo_describes true 3 co).epsilon
  magnetic := rfl
  xi := constant_means 3 I
  zeta := constant_means 3 (-I)
  mu := (demo_describes true 3 co).mu
  source := (demo_describes true 3 co).source
  sourceValue := (demo_describes true 3 co).sourceValue
  initial := (demo_describes true 3 co).initial
  initialValue := (demo_describes true 3 co).initialValue

/-- The hypotheses of `C86_coupled` and `C86_chiral` are met. -/
example (co : Const) : ∃ s E, chiralArgs.start co 1e-8 ⟨1, 1, 1⟩ = .ok ⟨3, s⟩ ∧ getE 1 s = (fun _ _ => 3) ∧
    CoupledEquation (kOf demoGrid) 1 chiralMedium.epsilon chiralMedium.xi chiralMedium.zeta chiralMedium.mu (fun _ _ => 1) E ∧
    (∀ E', CoupledEquation (kOf demoGrid) 1 chiralMedium.epsilon chiralMedium.xi chiralMedium.zeta chiralMedium.mu (fun _ _ => 1) E' → E' = E) ∧
    ConvergesExponentially (.vectorial (show 1 ≤ 3 by decide)) (backendK demoGrid 1) 1 s E := by
  refine C86_chiral (chiral_describes co) rfl demo_step one_pos (by decide) ⟨1, 1, 1⟩ 1e-8 ?_ (fun x => ?_) one_ne_zero (fun x => ?_) ?_
  · have : ¬ closeTo (toMatrixField 1 (⟨[], fun _ => I⟩ : Assign.Arr ℂ)) 0 := fun h => by
      have := h (fun _ => 0) fun a => by rw [(constant_field I).1 a]; exact Nat.one_pos
      rw [(constant_field I).2, sub_zero, norm_zero, norm_I] at this
      norm_num at this
    unfold foundMagnetic
    rw [Bool.not_eq_true', decide_eq_false_iff_not]
    exact fun h => this h.1
  · change IsUnit ((2 : ℂ) • (1 : Matrix (Fin 3) (Fin 3) ℂ)).det
    simp
  · change (I • (1 : Matrix (Fin 3) (Fin 3) ℂ)) * ((2 : ℂ) • (1 : Matrix (Fin 3) (Fin 3) ℂ))⁻¹ = -(((2 : ℂ) • (1 : Matrix (Fin 3) (Fin 3) ℂ))⁻¹ * (-I) • (1 : Matrix (Fin 3) (Fin 3) ℂ))
    rw [Matrix.smul_mul, Matrix.one_mul, Matrix.mul_smul, Matrix.mul_one, neg_smul, neg_neg]
  · refine ⟨1, one_pos, fun x e h => ?_⟩
    change _ ≤ absorbed ((if (x 0).val = 0 then 1 + I else 2 + I : ℂ) • (1 : Matrix (Fin 3) (Fin 3) ℂ) + (if (x 0).val = 0 then 0 else I : ℂ) • 1) (I • 1) ((-I) • 1) ((2 : ℂ) • 1) e h
    have h1 : star h ⬝ᵥ e = star (star e ⬝ᵥ h) := Matrix.star_dotProduct _ _
    have h2 : 0 ≤ ∑ i, ‖e i‖ ^ 2 := Finset.sum_nonneg fun i _ => sq_nonneg _
    simp only [absorbed, ← add_smul, Matrix.smul_mulVec, Matrix.one_mulVec, dotProduct_add, dotProduct_smul, smul_eq_mul, h1, star_dot_self]
    split_ifs
    · simp only [add_im, mul_im, add_re, one_re, I_re, one_im, I_im, ofReal_re, ofReal_im, RCLike.star_def, conj_im, conj_re, neg_im, neg_re, re_ofNat, im_ofNat, zero_re, zero_im]
      linarith
    · simp only [add_im, mul_im, add_re, one_re, I_re, one_im, I_im, ofReal_re, ofReal_im, RCLike.star_def, conj_im, conj_re, neg_im, neg_re, re_ofNat, im_ofNat]
      linarith

end Verif.Problem
