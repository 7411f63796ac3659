import Verif.Props.ProblemCoupled
import Verif.Props.SolverReciprocityCoupled

/-!
# C74: reciprocity with magneto-electric coupling, from the arguments of two calls to their solutions
-/

namespace Verif.Problem

open Verif Verif.Fourier Verif.Backend Verif.Solver Verif.Construct Complex Matrix
open Verif.Assign (toMatrixField)
open Verif.Spec.Solver (AbsorbingCoupled)
open Verif.Spec.Physics

variable {d : ℕ} {co : Const} {p : Args d}

/-- **C74 (as called, coupled, partial).** Two calls for the same reciprocal material with coupling that absorbs, that differ only in the source and the initial field, on odd grids. -/
theorem C74_called_coupled_partial {m : Medium 3 p.grid.shape} {S S' E0 E0' : Solver.Field 3 p.grid.shape} (source : Construct.Args) (initial : Assign.Arr ℂ) (h : Describes co 3 p m S E0)
    (h' : Describes co 3 { p with source := source, initial := initial } m S' E0') (hvec : p.source.isVectorial (List.ofFn p.grid.shape) (p.currentFactor co) = true)
    (hvec' : source.isVectorial (List.ofFn p.grid.shape) (p.currentFactor co) = true) (hd : d ≤ 3) (hs : ∀ a, p.grid.step a ≠ 0) (hodd : ∀ a, p.grid.shape a % 2 = 1) (hk0 : 0 < p.frequency.k0 co.c)
    (o : Optimum) (tol : ℝ) (hmag : foundMagnetic (toMatrixField d p.xi) (toMatrixField d p.zeta) (toMatrixField d p.mu) = true) (hinv : ∀ x, IsUnit (m.mu x).det) (hv : o.vec.2 ≠ 0)
    (hr : ReciprocalCoupled m.epsilon m.xi m.zeta m.mu) (habs : AbsorbingCoupled m.exchanged.epsilon m.exchanged.xi m.exchanged.zeta m.exchanged.mu) :
    ∃ s s' : State 3 p.grid.shape, ∃ E E' : Solver.Field 3 p.grid.shape,
      p.start co tol o = .ok ⟨3, s⟩ ∧ Args.start co { p with source := source, initial := initial } tol o = .ok ⟨3, s'⟩ ∧
      ConvergesExponentially (.vectorial hd) (backendK p.grid (p.frequency.k0 co.c)) (p.frequency.k0 co.c) s E ∧
      ConvergesExponentially (.vectorial hd) (backendK p.grid (p.frequency.k0 co.c)) (p.frequency.k0 co.c) s' E' ∧ reaction S' E = reaction S E' := by
  obtain ⟨s, E, h1, -, h2, -, h3⟩ := C86_coupled h hvec hs hk0 hd o tol hmag hinv hv habs
  obtain ⟨s', E', h1', -, h2', -, h3'⟩ := C86_coupled (p := { p with source := source, initial := initial }) h' hvec' hs hk0 hd o tol hmag hinv hv habs
  exact ⟨s, s', E, E', h1, h1', h3, h3', C74_coupled_partial p.grid (fun a _ => hs a) hodd hk0.ne' (C74_exchanged hr) h2 h2'⟩

/-- The material of `handed`, given by numbers, with the source and the initial field given by numbers. -/
noncomputable def handedArgs (g : Grid.Obj d ℝ) (z w : ℂ) : Args d where
  grid := g
  frequency := ⟨1, none, none⟩
  source := ⟨some true, none, some ⟨[], fun _ => z⟩⟩
  epsilon := some ⟨[], fun _ => 2 + I⟩
  index := none
  xi := ⟨[], fun _ => I / 2⟩
  zeta := ⟨[], fun _ => -(I / 2)⟩
  mu := ⟨[], fun _ => 1⟩
  electric := none
  magnetic := none
  thickness := []
  initial := ⟨[], fun _ => w⟩

theorem number_means (n : ℕ) (N : Fin d → ℕ) (z : ℂ) : Means n N ⟨[], fun _ => z⟩ fun _ => z • 1 :=
  .scalar ⟨by simp, by simp⟩ trivial fun _ => rfl

theorem number_field (z : ℂ) : (∀ a, (toMatrixField d (⟨[], fun _ => z⟩ : Assign.Arr ℂ)).shape a = 1) ∧ ∀ i, (toMatrixField d (⟨[], fun _ => z⟩ : Assign.Arr ℂ)).val i = z :=
  Assign.C30_scalar _ rfl

theorem handed_describes (co : Const) (g : Grid.Obj d ℝ) (hg : ∀ a, 0 < g.shape a) (z w : ℂ) : Describes co 3 (handedArgs g z w) (handed g.shape) (fun _ _ => z) (fun _ _ => w) where
  nonempty := hg
  epsilon := ⟨_, _, rfl, number_means 3 g.shape (2 + I), .inl ⟨rfl, rfl⟩⟩
  magnetic := rfl
  xi := number_means 3 g.shape (I / 2)
  zeta := number_means 3 g.shape (-(I / 2))
  mu := by
    have := number_means 3 g.shape 1
    rw [show (fun _ : Idx g.shape => (1 : ℂ) • (1 : Matrix (Fin 3) (Fin 3) ℂ)) = (handed g.shape).mu by funext _; exact one_smul _ _] at this
    exact this
  source := fun a => .inr ((number_field z).1 a)
  sourceValue := fun _ _ => ((number_field z).2 _).symm
  initial := fun a => .inr ((number_field w).1 a)
  initialValue := fun _ _ => ((number_field w).2 _).symm

theorem handed_found : foundMagnetic (toMatrixField d (⟨[], fun _ => I / 2⟩ : Assign.Arr ℂ)) (toMatrixField d ⟨[], fun _ => -(I / 2)⟩) (toMatrixField d ⟨[], fun _ => 1⟩) = true := by
  have : ¬ closeTo (toMatrixField d (⟨[], fun _ => I / 2⟩ : Assign.Arr ℂ)) 0 := fun h => by
    have := h (fun _ => 0) fun a => by rw [(number_field (I / 2)).1 a]; exact Nat.one_pos
    rw [(number_field (I / 2)).2, sub_zero, norm_zero, norm_div, norm_I] at this
    norm_num at this
  unfold foundMagnetic
  rw [Bool.not_eq_true', decide_eq_false_iff_not]
  exact fun h => this h.1

theorem handed_exchanged_absorbing {N : Fin d → ℕ} : AbsorbingCoupled (handed N).exchanged.epsilon (handed N).exchanged.xi (handed N).exchanged.zeta (handed N).exchanged.mu := by
  rw [handed_exchanged]
  exact handed_absorbing

/-- The hypotheses of `C74_called_coupled_partial` are met by a chiral material, on all grids with 65 points along each axis. -/
example (co : Const) (g : Grid.Obj d ℝ) (hd : d ≤ 3) (hs : ∀ a, g.step a ≠ 0) (hN : ∀ a, g.shape a = 65) (o : Optimum) (ho : o.vec.2 ≠ 0) (z w z' w' : ℂ) :=
  C74_called_coupled_partial (p := handedArgs g z w) ⟨some true, none, some ⟨[], fun _ => z'⟩⟩ ⟨[], fun _ => w'⟩ (handed_describes co g (fun a => by rw [hN a]; decide) z w)
    (handed_describes co g (fun a => by rw [hN a]; decide) z' w') rfl rfl hd hs (fun a => by rw [show (handedArgs g z w).grid.shape a = 65 from hN a]) one_pos o 1e-8 handed_found
    (fun x => by change IsUnit (1 : Matrix (Fin 3) (Fin 3) ℂ).det; simp) ho (handed_reciprocal (N := g.shape)) (handed_exchanged_absorbing (N := g.shape))

end Verif.Problem
