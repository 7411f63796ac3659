import Verif.Props.ProblemContinuous
import Verif.Props.ProblemRefinementCoupled
import Verif.Props.SolverCoupledRate

/-!
# C121 and C123 from the arguments of the constructor, for magnetic materials and for materials with magneto-electric coupling
-/

namespace Verif.Problem

open Verif Verif.Fourier Verif.Backend Verif.Solver Verif.Construct Verif.Continuous Verif.Refinement Complex Matrix
open Verif.Spec.Solver (Coupled CoupledEquation absorbed Within electricDifference magneticDifference)
open Verif.Spec.Continuous (Point BandLimited AtSample Interpolates)
open Verif.Spec.Refinement

variable {d : ℕ}

/-- Maxwell's equations `∇ × F = i k₀ (ζ F + μ G)` and `∇ × G = - i k₀ (ε F + ξ G) - (i / k₀) S` at the positions of the samples, for fields that vary slowly enough. -/
def CoupledAtSamples (g : Grid.Obj d ℝ) (k0 : ℝ) (epsilon xi zeta mu : Tensor 3 g.shape) (S : Solver.Field 3 g.shape) (F G : Fin 3 → Point → ℂ) : Prop :=
  ((∀ c, F c ∈ BandLimited g.shape g.step) ∧ ∀ c, G c ∈ BandLimited g.shape g.step) ∧ ∀ c x r, AtSample g x r →
    Spec.Continuous.curl F c r = I * k0 * ((zeta x).mulVec (fun j => F j r) c + (mu x).mulVec (fun j => G j r) c) ∧
      Spec.Continuous.curl G c r = -I * k0 * ((epsilon x).mulVec (fun j => F j r) c + (xi x).mulVec (fun j => G j r) c) - I / k0 * S c x

section
variable {g : Grid.Obj d ℝ} (hd : d ≤ 3) (hs : ∀ a, g.step a ≠ 0)
include hd hs

/-- **C123 (coupled).** The functions that interpolate two fields satisfy Maxwell's equations at the positions of the samples, if and only if the fields satisfy the equations of the grid. -/
theorem C123_coupled (k0 : ℝ) (epsilon xi zeta mu : Tensor 3 g.shape) {S E H : Solver.Field 3 g.shape} {F G : Fin 3 → Point → ℂ} (hF : ∀ c, Interpolates g (F c) (E c)) (hG : ∀ c, Interpolates g (G c) (H c)) :
    Coupled (kOf g) k0 epsilon xi zeta mu S E H ↔ CoupledAtSamples g k0 epsilon xi zeta mu S F G := by
  have e1 : ∀ c x r, AtSample g x r → Spec.Continuous.curl F c r = Spec.Solver.curl (kOf g) E c x := fun c x r hr => (C123_curl hd hs hF c).2 x r hr
  have e2 : ∀ c x r, AtSample g x r → Spec.Continuous.curl G c r = Spec.Solver.curl (kOf g) H c x := fun c x r hr => (C123_curl hd hs hG c).2 x r hr
  have e3 : ∀ x r, AtSample g x r → (fun j => F j r) = fun j => E j x := fun x r hr => funext fun j => (hF j).2 x r hr
  have e4 : ∀ x r, AtSample g x r → (fun j => G j r) = fun j => H j x := fun x r hr => funext fun j => (hG j).2 x r hr
  constructor
  · rintro ⟨h1, h2⟩
    refine ⟨⟨fun c => (hF c).1, fun c => (hG c).1⟩, fun c x r hr => ?_⟩
    rw [e1 c x r hr, e2 c x r hr, e3 x r hr, e4 x r hr]
    exact ⟨h1 c x, h2 c x⟩
  · rintro ⟨-, h⟩
    constructor <;> intro c x <;> obtain ⟨r, hr⟩ := exists_atSample hd g x <;> have h1 := h c x r hr <;> rw [e1 c x r hr, e2 c x r hr, e3 x r hr, e4 x r hr] at h1
    · exact h1.1
    · exact h1.2

end

section
variable {co : Const} {p : Args d} {m : Medium 3 p.grid.shape} {S E0 : Solver.Field 3 p.grid.shape} {o : Optimum} (h : CalledMagnetic co p m S E0 o) (hd : d ≤ 3) (hs : ∀ a, p.grid.step a ≠ 0)
  (hk0 : 0 < p.frequency.k0 co.c) {δ : ℝ} (hδ : 0 < δ)
  (habs : ∀ x e f, δ * (∑ i, ‖e i‖ ^ 2 + ∑ i, ‖f i‖ ^ 2) ≤ absorbed (m.exchanged.epsilon x) (m.exchanged.xi x) (m.exchanged.zeta x) (m.exchanged.mu x) e f) (tol : ℝ)
include h hs hk0 hδ habs

/-- **C121 (as called, coupled).** For all materials that are found to be magnetic and that absorb both fields at least `δ`: the iteration converges to a field `E` that, for every other problem of which the material differs
by at most `η` and the source by at most `k₀² θ`, differs from the solution by at most that much divided by `δ`, with the magnetic field. -/
theorem C121_called_coupled : ∃ t E H, p.start co tol o = .ok ⟨3, t⟩ ∧ ConvergesTo (.vectorial hd) (backendK p.grid (p.frequency.k0 co.c)) (p.frequency.k0 co.c) t E ∧
    Coupled (kOf p.grid) (p.frequency.k0 co.c) m.exchanged.epsilon m.exchanged.xi m.exchanged.zeta m.exchanged.mu S E H ∧
      ∀ (epsilon xi zeta mu : Tensor 3 p.grid.shape) (S' E' H' : Solver.Field 3 p.grid.shape) (η θ : ℝ), 0 ≤ η → Within (fun x => epsilon x - m.exchanged.epsilon x) η →
        Within (fun x => xi x - m.exchanged.xi x) η → Within (fun x => zeta x - m.exchanged.zeta x) η → Within (fun x => mu x - m.exchanged.mu x) η →
        Backend.norm (S' - S) ≤ p.frequency.k0 co.c ^ 2 * θ → Coupled (kOf p.grid) (p.frequency.k0 co.c) epsilon xi zeta mu S' E' H' →
        δ * Real.sqrt (Backend.norm (E' - E) ^ 2 + Backend.norm (H' - H) ^ 2) ≤
          Real.sqrt ((η * (Backend.norm E' + Backend.norm H') + θ) ^ 2 + (η * (Backend.norm E' + Backend.norm H')) ^ 2) := by
  have hinv : ∀ x, IsUnit (m.mu x).det := fun x => absorbs_invertible hδ (habs x)
  obtain ⟨t, E, h1, -, ⟨H, h3⟩, -, h4⟩ := C86_coupled h.describes h.vectorial hs hk0 hd o tol h.found hinv h.optimum ⟨δ, hδ, fun x e f =>
    (mul_le_mul_of_nonneg_left (le_add_of_nonneg_right (Finset.sum_nonneg fun i _ => sq_nonneg _)) hδ.le).trans (habs x e f)⟩
  refine ⟨t, E, H, h1, h4.tendsto, h3, fun epsilon xi zeta mu S' E' H' η θ hη w1 w2 w3 w4 hS h' => ?_⟩
  have hk : 0 < p.frequency.k0 co.c ^ 2 := by positivity
  obtain ⟨b1, b2⟩ := C121_coupled_size (k0 := p.frequency.k0 co.c) hη w1 w2 w3 w4 S S' E' H'
  have b3 : Backend.norm (S' - S) / p.frequency.k0 co.c ^ 2 ≤ θ := by
    rw [div_le_iff₀ hk, mul_comm]
    exact hS
  refine (C121_coupled hk0.ne' habs h3 h').trans (Real.sqrt_le_sqrt (add_le_add ?_ ?_))
  · exact pow_le_pow_left₀ (norm_nonneg' _) (b1.trans (by linarith)) 2
  · exact pow_le_pow_left₀ (norm_nonneg' _) b2 2

/-- **C123 (as called, coupled).** For all materials that are found to be magnetic and that absorb both fields: exactly one pair of fields that vary slowly enough satisfies Maxwell's equations at the samples, and the function that
interpolates what the solver has calculated converges to its electric field, uniformly in space. -/
theorem C123_called_coupled : ∃ t F G, p.start co tol o = .ok ⟨3, t⟩ ∧
    CoupledAtSamples p.grid (p.frequency.k0 co.c) m.exchanged.epsilon m.exchanged.xi m.exchanged.zeta m.exchanged.mu S F G ∧
    (∀ F' G', CoupledAtSamples p.grid (p.frequency.k0 co.c) m.exchanged.epsilon m.exchanged.xi m.exchanged.zeta m.exchanged.mu S F' G' → F' = F ∧ G' = G) ∧
    ConvergesInSpace p.grid (.vectorial hd) (p.frequency.k0 co.c) t F := by
  obtain ⟨t, E, H, h1, h2, h3, h4⟩ := C121_called_coupled h hd hs hk0 hδ habs tol
  choose F hF uF using fun c => C123_interpolation hd hs (E c)
  choose G hG uG using fun c => C123_interpolation hd hs (H c)
  refine ⟨t, F, G, h1, (C123_coupled hd hs _ _ _ _ _ hF hG).1 h3, fun F' G' h' => ?_, C123_converges hd hs hF h2⟩
  choose E' hE' using fun c => bandLimited_interpolates hd hs (h'.1.1 c)
  choose H' hH' using fun c => bandLimited_interpolates hd hs (h'.1.2 c)
  have h5 := (C123_coupled hd hs _ _ _ _ _ hE' hH').2 h'
  have w : ∀ A : Tensor 3 p.grid.shape, Within (fun x => A x - A x) 0 := fun A x v => by simp
  have h6 := h4 _ _ _ _ S E' H' 0 0 le_rfl (w _) (w _) (w _) (w _) (by rw [sub_self, mul_zero]; exact ((norm_eq_zero_iff _).2 rfl).le) h5
  rw [zero_mul, zero_add, zero_pow two_ne_zero, zero_add, Real.sqrt_zero] at h6
  have h7 : Backend.norm (E' - E) ^ 2 + Backend.norm (H' - H) ^ 2 ≤ 0 := Real.sqrt_eq_zero'.1 (le_antisymm (nonpos_of_mul_nonpos_right h6 hδ) (Real.sqrt_nonneg _))
  have h8 := sq_nonneg (Backend.norm (E' - E))
  have h9 := sq_nonneg (Backend.norm (H' - H))
  obtain rfl : E' = E := sub_eq_zero.1 ((norm_eq_zero_iff _).1 (pow_eq_zero_iff two_ne_zero |>.1 (le_antisymm (by linarith) h8)))
  obtain rfl : H' = H := sub_eq_zero.1 ((norm_eq_zero_iff _).1 (pow_eq_zero_iff two_ne_zero |>.1 (le_antisymm (by linarith) h9)))
  exact ⟨funext fun c => uF c _ (hE' c), funext fun c => uG c _ (hH' c)⟩

end

theorem lossy_exchanged_absorbs (x : Idx demoGrid.shape) (e f : Fin 3 → ℂ) : 1 * (∑ i, ‖e i‖ ^ 2 + ∑ i, ‖f i‖ ^ 2) ≤
    absorbed (lossyMedium.exchanged.epsilon x) (lossyMedium.exchanged.xi x) (lossyMedium.exchanged.zeta x) (lossyMedium.exchanged.mu x) e f := by
  rw [exchanged_reciprocal (m := lossyMedium) (fun x => absorbs_invertible one_pos (lossy_absorbs 0)) fun x => by
    show I • (1 : Matrix (Fin 3) (Fin 3) ℂ) * ((2 + I : ℂ) • 1)⁻¹ = -(((2 + I : ℂ) • 1)⁻¹ * (-I) • 1)
    rw [Matrix.smul_mul, Matrix.one_mul, Matrix.mul_smul, Matrix.mul_one, neg_smul, neg_neg]]
  exact lossy_absorbs 0 e f

/-- The hypotheses of `C121_called_coupled` and `C123_called_coupled`, and with it those of `C123_coupled`, are met: a chiral material that absorbs both fields. -/
example (co : Const) {o : Optimum} (ho : o.vec.2 ≠ 0) := And.intro (C121_called_coupled (lossy_called co ho) (by decide) demo_step one_pos one_pos lossy_exchanged_absorbs 1e-8)
  (C123_called_coupled (lossy_called co ho) (by decide) demo_step one_pos one_pos lossy_exchanged_absorbs 1e-8)

end Verif.Problem
