import Verif.Props.ProblemIndex
import Verif.Props.SolverFields

/-!
# C86: current densities, magnetic boundaries, and refractive indices that are rejected
-/

namespace Verif.Problem

open Verif Verif.Fourier Verif.Backend Verif.Solver Verif.Construct Complex Matrix
open Verif.Assign (Arr toMatrixField full CanBroadcast broadcast InShape)

variable {d n : ℕ}

/-! ### The current density -/

/-- **C86 (current density).** The source for a current density is `-i ω μ₀ j`, where `ω` is the angular frequency and `j` has been broadcast to the points of the grid. -/
theorem C86_current {co : Const} {p : Args d} {m : Medium n p.grid.shape} {S E : Solver.Field n p.grid.shape} (h : Describes co n p m S E) {j : Arr ℂ} (hs : p.source.source = none)
    (hj : p.source.current = some j) (c : Fin n) (x : Idx p.grid.shape) :
    S c x = -I * ((p.frequency.k0 co.c * co.c : ℝ) : ℂ) * (co.mu0 : ℂ) * broadcast (toMatrixField d j) (Fin.cons (c : ℕ) (Fin.cons 0 fun b => x b)) := by
  have e : (p.source.resolve (List.ofFn p.grid.shape) (p.currentFactor co)).2 = ⟨j.shape, fun i => j.val i * p.currentFactor co⟩ := by
    unfold Construct.Args.resolve
    rw [hs, hj]
  rw [h.sourceValue, e, toMatrixField_scaled]
  unfold broadcast Args.currentFactor Const.omega angularFrequency
  ring

/-- **C86 (current density).** The Solution object reports the current density that its constructor was given. -/
theorem C86_current_read [NeZero n] {co : Const} {p : Args d} {m : Medium n p.grid.shape} {S E : Solver.Field n p.grid.shape} (h : Describes co n p m S E) {j : Arr ℂ}
    (hs : p.source.source = none) (hj : p.source.current = some j) (tol : ℝ) (o : Optimum) (hk0 : p.frequency.k0 co.c ≠ 0) (hc : co.c ≠ 0) (hm : co.mu0 ≠ 0) :
    ∀ s, p.construct co n tol o = .ok s → s.alpha.im ≠ 0 → s.beta ≠ 0 →
      ∀ c x, getJ co (p.frequency.k0 co.c) s c x = broadcast (toMatrixField d j) (Fin.cons (c : ℕ) (Fin.cons 0 fun b => x b)) := by
  intro s hs' ha hb c x
  have key : ∀ (mag : Bool) (alpha : ℂ) (beta : ℝ) (F : Solver.Field n p.grid.shape), (prepare m mag alpha beta S F).alpha.im ≠ 0 → (prepare m mag alpha beta S F).beta ≠ 0 →
      getJ co (p.frequency.k0 co.c) (prepare m mag alpha beta S F) c x = broadcast (toMatrixField d j) (Fin.cons (c : ℕ) (Fin.cons 0 fun b => x b)) := fun mag alpha beta F ha hb => by
    have ha' : alpha.im ≠ 0 := ha
    have hb' : beta ≠ 0 := hb
    have hS : getSource (prepare m mag alpha beta S F) c x = S c x := by
      rw [prepare, C33_source _ ha']
      have h2 := ofReal_ne ha'
      have h3 := ofReal_ne hb'
      simp only [getSource, prepared, factor]
      field_simp
    have h1 := ofReal_ne hk0
    have h2 := ofReal_ne hc
    have h3 := ofReal_ne hm
    have h4 := I_ne_zero
    unfold getJ
    rw [hS, C86_current h hs hj]
    unfold Const.omega angularFrequency
    push_cast
    field_simp
  rw [C86_construct h] at hs'
  have := Except.ok.inj hs'
  subst this
  split_ifs at ha hb ⊢
  · exact key _ _ _ _ ha hb
  · exact key _ _ _ _ ha hb

/-! ### Magnetic boundaries -/

theorem withMagnetic_means {N : Fin d → ℕ} {u chi : Arr ℂ} {M : Tensor n N} {X : Idx N → ℂ} (form : TensorForm d n u) (fits : Fits n N u)
    (value : ∀ x : Idx N, M x = tensorMeaning u (fun b => (x b : ℕ)) n) (hc : IsChi n N chi X) :
    ∃ u', withMagnetic d n u chi = .ok u' ∧ Means n N u' fun x => M x + X x • (1 : Matrix (Fin n) (Fin n) ℂ) := by
  have hchi : ∀ x : Idx N, scalarMeaning chi (fun b => (x b : ℕ)) n = X x • (1 : Matrix (Fin n) (Fin n) ℂ) := fun x => by
    unfold scalarMeaning
    rw [hc.value x]
  obtain ⟨b, hb, hfb, hbt, hbv⟩ := eye_mul hc.rank hc.fits
  obtain ⟨b', hb', hfb', hbt', hbv'⟩ := eye_mul_tensor hbt hfb
  have key : ∀ w : Arr ℂ, Fits n N w → TensorForm d n w → (∀ x : Fin d → ℕ, tensorMeaning w x n = scalarMeaning chi x n) →
      ∃ u', bop (· + ·) u w = .ok u' ∧ Means n N u' fun x => M x + X x • (1 : Matrix (Fin n) (Fin n) ℂ) := fun w hf ht hv => by
    obtain ⟨e, h1, h2, h3⟩ := tensor_add form ht fits hf
    obtain ⟨e', h4, h5⟩ := bop_exists (· + ·) fits hf
    have he : e' = e := by
      rw [h1] at h4
      exact (Except.ok.inj h4).symm
    subst he
    exact ⟨e', h1, .tensor h2 h5 fun x => by rw [h3, value, hv, hchi]⟩
  unfold withMagnetic
  split_ifs
  · rw [hb]
    change ∃ u', ((bop (· * ·) (eye d n) b) >>= fun chi => bop (· + ·) u chi) = _ ∧ _
    rw [hb']
    exact key b' hfb' hbt' fun x => hbv' x _ (hbv x)
  · change ∃ u', ((bop (· * ·) (eye d n) chi) >>= fun chi => bop (· + ·) u chi) = _ ∧ _
    rw [hb]
    exact key b hfb hbt hbv

/-- **C86 (magnetic boundary).** A magnetic boundary has the same effect as its susceptibility, times the identity, added to a permeability in tensor form.  Permeabilities in scalar form: `C85_magnetic_violates`. -/
theorem C86_magnetic_boundary [NeZero n] {co : Const} {p : Args d} {e chi : Arr ℂ} {M : Tensor n p.grid.shape} {X : Idx p.grid.shape → ℂ} (he : p.epsilon = some e)
    (hm : p.magnetic = some chi) (form : TensorForm d n p.mu) (fits : Fits n p.grid.shape p.mu)
    (value : ∀ x : Idx p.grid.shape, M x = tensorMeaning p.mu (fun b => (x b : ℕ)) n) (hc : IsChi n p.grid.shape chi X) (tol : ℝ) (o : Optimum) :
    ∃ u, Means n p.grid.shape u (fun x => M x + X x • (1 : Matrix (Fin n) (Fin n) ℂ)) ∧
      p.construct co n tol o = Args.construct co { p with mu := u, magnetic := none } n tol o := by
  obtain ⟨u, hu, hU⟩ := withMagnetic_means form fits value hc
  have hb : p.bounded n = Args.bounded { p with mu := u, magnetic := none } n := by
    unfold Args.bounded Args.materials
    simp only [he, hm]
    cases p.electric with
    | none =>
      simp only [Bind.bind, Except.bind, Pure.pure, Except.pure]
      rw [hu]
    | some f =>
      simp only [Bind.bind, Except.bind, Pure.pure, Except.pure]
      cases withElectric d n e f with
      | error _ => rfl
      | ok w => simp only [hu]
  refine ⟨u, hU, ?_⟩
  unfold Args.construct Args.medium
  rw [hb]
  rfl

/-! ### Refractive indices that are rejected -/

/-- **C86 (refractive index).** A refractive index of which the canonical form has a different number of rows and columns is rejected. -/
theorem C86_index_rejects [NeZero n] {co : Const} {p : Args d} {v : Arr ℂ} (he : p.epsilon = none) (hv : p.index = some v)
    (h : (toMatrixField d v).shape 0 ≠ (toMatrixField d v).shape 1) (tol : ℝ) (o : Optimum) : ∀ s, p.construct co n tol o ≠ .ok s := by
  have hs : isScalar (toMatrixField d v) = false := by
    unfold isScalar
    by_contra hn
    rw [Bool.not_eq_false, Bool.and_eq_true, beq_iff_eq, beq_iff_eq] at hn
    exact h (hn.1.trans hn.2.symm)
  have hm : p.materials = .error .valueError := by
    unfold Args.materials
    rw [he, hv, Option.getD_some]
    simp only [squared, hs, Bool.false_eq_true, if_false]
    rw [if_neg h]
    rfl
  have hb : p.medium n = .error .valueError := by
    unfold Args.medium Args.bounded
    rw [hm]
    rfl
  intro s
  unfold Args.construct
  split_ifs
  · simp only [hb, Bind.bind, Except.bind]
    split <;> exact (nomatch ·)
  · exact (nomatch ·)

/-- The hypothesis of `C86_index_rejects` is met by arrays that broadcast as a row of matrices: three numbers, for a grid with one axis. -/
example (f : List ℕ → ℂ) : (toMatrixField 1 (⟨[3, 1, 2], f⟩ : Arr ℂ)).shape 0 ≠ (toMatrixField 1 (⟨[3, 1, 2], f⟩ : Arr ℂ)).shape 1 := by
  simp [toMatrixField, Assign.expand]

end Verif.Problem
