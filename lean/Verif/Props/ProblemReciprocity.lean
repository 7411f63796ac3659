import Verif.Props.SolverReciprocity
import Verif.Props.ProblemExamples

/-!
# C74: reciprocity, from the arguments of two calls to their solutions
-/

namespace Verif.Problem

open Verif Verif.Fourier Verif.Backend Verif.Solver Verif.Construct Complex Matrix
open Verif.Assign (toMatrixField)
open Verif.Spec.Physics
open Verif.Spec.Solver (NoGain)

variable {d : ℕ} {co : Const} {p : Args d}

/-- **C74 (scalar, as called).** Two calls for the same scalar problem that differ only in the source and the initial field: the constructor succeeds for both, and the fields to which
they converge are reciprocal, for all grids. -/
theorem C74_called_scalar {m : Medium 1 p.grid.shape} {S S' E0 E0' : Solver.Field 1 p.grid.shape} (source : Construct.Args) (initial : Assign.Arr ℂ) (h : Describes co 1 p m S E0)
    (h' : Describes co 1 { p with source := source, initial := initial } m S' E0') (hvec : p.source.isVectorial (List.ofFn p.grid.shape) (p.currentFactor co) = false)
    (hvec' : source.isVectorial (List.ofFn p.grid.shape) (p.currentFactor co) = false) (hs : ∀ a, p.grid.step a ≠ 0) (hk0 : 0 < p.frequency.k0 co.c)
    (hxi : ∀ x, m.xi x = 0) (hzeta : ∀ x, m.zeta x = 0) (habs : ∀ x, 0 < (m.epsilon x 0 0).im) (o : Optimum) (tol : ℝ) (hgainM : ∀ x, 0 ≤ (m.mu x 0 0).im) (htol : 0 ≤ tol)
    (hmu : ∀ x, ‖m.mu x 0 0 - m.mu (first h.nonempty) 0 0‖ ≤ 1e-8 + 1e-5 * ‖m.mu (first h.nonempty) 0 0‖) (hβ : 0 < ((m.mu (first h.nonempty) 0 0)⁻¹).re) :
    ∃ s s' : State 1 p.grid.shape, ∃ E E' : Solver.Field 1 p.grid.shape,
      p.start co tol o = .ok ⟨1, s⟩ ∧ Args.start co { p with source := source, initial := initial } tol o = .ok ⟨1, s'⟩ ∧
      ConvergesExponentially .scalar (backendK p.grid (p.frequency.k0 co.c)) (p.frequency.k0 co.c) s E ∧
      ConvergesExponentially .scalar (backendK p.grid (p.frequency.k0 co.c)) (p.frequency.k0 co.c) s' E' ∧
      ∑ x, S' 0 x * E 0 x = ∑ x, S 0 x * E' 0 x := by
  obtain ⟨s, E, h1, -, h2, h3⟩ := C86_scalar h hvec hs hk0 hxi hzeta habs o tol hgainM htol hmu hβ
  obtain ⟨s', E', h1', -, h2', h3'⟩ := C86_scalar (p := { p with source := source, initial := initial }) h' hvec' hs hk0 hxi hzeta habs o tol hgainM htol hmu hβ
  exact ⟨s, s', E, E', h1, h1', h3, h3', C74_scalar p.grid (fun a _ => hs a) _ h2 h2'⟩

/-- **C74 (vectorial, as called, partial).** Two calls for the same vectorial problem with a symmetric permittivity and a uniform permeability, that differ only in the source and the initial field, on the grids
of `C74_nonmagnetic_partial`. -/
theorem C74_called_vectorial_partial {m : Medium 3 p.grid.shape} {S S' E0 E0' : Solver.Field 3 p.grid.shape} (source : Construct.Args) (initial : Assign.Arr ℂ) (h : Describes co 3 p m S E0)
    (h' : Describes co 3 { p with source := source, initial := initial } m S' E0') (hvec : p.source.isVectorial (List.ofFn p.grid.shape) (p.currentFactor co) = true)
    (hvec' : source.isVectorial (List.ofFn p.grid.shape) (p.currentFactor co) = true) (hd : d ≤ 3) (hs : ∀ a, p.grid.step a ≠ 0) (hb : Balanced p.grid.shape) (hk0 : 0 < p.frequency.k0 co.c)
    (hxi : ∀ x, m.xi x = 0) (hzeta : ∀ x, m.zeta x = 0) (hgain : NoGain m.epsilon) (hgainM : NoGain m.mu) (o : Optimum) (tol : ℝ) (htol : 0 ≤ tol)
    (form : ScalarForm d p.mu) {r : ℝ} (hr : 0 < r) (hmu : ∀ x, m.mu x = (r : ℂ) • 1) (habs : Absorbs m.epsilon) (he : Reciprocal m.epsilon) :
    ∃ s s' : State 3 p.grid.shape, ∃ E E' : Solver.Field 3 p.grid.shape,
      p.start co tol o = .ok ⟨3, s⟩ ∧ Args.start co { p with source := source, initial := initial } tol o = .ok ⟨3, s'⟩ ∧
      ConvergesExponentially (.vectorial hd) (backendK p.grid (p.frequency.k0 co.c)) (p.frequency.k0 co.c) s E ∧
      ConvergesExponentially (.vectorial hd) (backendK p.grid (p.frequency.k0 co.c)) (p.frequency.k0 co.c) s' E' ∧ reaction S' E = reaction S E' := by
  obtain ⟨s, E, h1, -, h2, h3⟩ := C86_uniform h hvec hd hs hk0 hxi hzeta hgain hgainM o tol htol form hr hmu habs
  obtain ⟨s', E', h1', -, h2', h3'⟩ := C86_uniform (p := { p with source := source, initial := initial }) h' hvec' hd hs hk0 hxi hzeta hgain hgainM o tol htol form hr hmu habs
  rw [show m.mu = fun _ => (r : ℂ) • 1 from funext hmu] at h2 h2'
  exact ⟨s, s', E, E', h1, h1', h3, h3', C74_nonmagnetic_partial p.grid (fun a _ => hs a) hb _ he (ofReal_ne hr.ne') h2 h2'⟩

theorem demo_describes_other (v : Bool) (n : ℕ) (co : Const) (z w : ℂ) :
    Describes co n { demoArgs v with source := ⟨some v, none, some ⟨[], fun _ => z⟩⟩, initial := ⟨[], fun _ => w⟩ } (demoMedium n) (fun _ _ => z) (fun _ _ => w) where
  nonempty := (demo_describes v n co).nonempty
  epsilon := (demo_describes v n co).epsilon
  magnetic := rfl
  xi := (demo_describes v n co).xi
  zeta := (demo_describes v n co).zeta
  mu := (demo_describes v n co).mu
  source := fun a => .inr ((constant_field z).1 a)
  sourceValue := fun _ _ => ((constant_field z).2 _).symm
  initial := fun a => .inr ((constant_field w).1 a)
  initialValue := fun _ _ => ((constant_field w).2 _).symm

/-- The hypotheses of `C74_called_scalar` are met. -/
example (co : Const) (o : Optimum) (z w : ℂ) := by
  refine C74_called_scalar ⟨some false, none, some ⟨[], fun _ => z⟩⟩ ⟨[], fun _ => w⟩ (demo_describes false 1 co) (demo_describes_other false 1 co z w) rfl rfl demo_step one_pos
    (fun _ => rfl) (fun _ => rfl) (fun x => ?_) o 1e-8 (fun x => ?_) (by norm_num) (fun x => ?_) ?_
  · change 0 < (((if (x 0).val = 0 then 1 + I else 2 + I : ℂ) • (1 : Matrix (Fin 1) (Fin 1) ℂ) + (if (x 0).val = 0 then 0 else I : ℂ) • 1) 0 0).im
    split_ifs <;> simp
  · change 0 ≤ (((2 : ℂ) • (1 : Matrix (Fin 1) (Fin 1) ℂ)) 0 0).im
    simp
  · change ‖((2 : ℂ) • (1 : Matrix (Fin 1) (Fin 1) ℂ)) 0 0 - ((2 : ℂ) • (1 : Matrix (Fin 1) (Fin 1) ℂ)) 0 0‖ ≤ (1e-8 : ℝ) + 1e-5 * ‖((2 : ℂ) • (1 : Matrix (Fin 1) (Fin 1) ℂ)) 0 0‖
    rw [sub_self, norm_zero]
    positivity
  · change 0 < (((((2 : ℂ) • (1 : Matrix (Fin 1) (Fin 1) ℂ)) 0 0)⁻¹).re)
    simp

/-- The hypotheses of `C74_called_vectorial_partial` are met. -/
example (co : Const) (o : Optimum) (z w : ℂ) :=
  C74_called_vectorial_partial ⟨some true, none, some ⟨[], fun _ => z⟩⟩ ⟨[], fun _ => w⟩ (demo_describes true 3 co) (demo_describes_other true 3 co z w) rfl rfl (by decide) demo_step
    (fun a b hab => absurd (Subsingleton.elim a b) hab) one_pos (fun _ => rfl) (fun _ => rfl) (demo_noGain 3).1 (demo_noGain 3).2 o 1e-8 (by norm_num)
    ⟨by simp [demoArgs], by simp [demoArgs]⟩ (r := 2) (by norm_num) (fun _ => by push_cast; rfl) (demo_absorbs 3)
    (fun x => by
      change ((if (x 0).val = 0 then 1 + I else 2 + I : ℂ) • (1 : Matrix (Fin 3) (Fin 3) ℂ) + (if (x 0).val = 0 then 0 else I : ℂ) • 1)ᵀ = _ • 1 + _ • 1
      rw [Matrix.transpose_add, Matrix.transpose_smul, Matrix.transpose_smul, Matrix.transpose_one])

end Verif.Problem
