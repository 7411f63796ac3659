import Verif.Props.SolverState

/-!
# The material and source that a Solution represents in every history
-/

namespace Verif.Solver

open Verif Verif.Fourier Verif.Backend Complex

variable {d n : ℕ} {N : Fin d → ℕ}

/-- The stored arrays are those of the medium `m` and the source `S`, for the current bias. -/
structure Represents (m : Medium n N) (mag : Bool) (S : Field n N) (s : State n N) : Prop where
  alpha_ne : s.alpha.im ≠ 0
  beta_ne : s.beta ≠ 0
  eq : s = { prepared m mag s.alpha s.beta S s.field with prevNorm := s.prevNorm, iteration := s.iteration, residue := s.residue }

variable {m : Medium n N} {mag : Bool} {S : Field n N} {s : State n N}

theorem represents_prepare (m : Medium n N) (mag : Bool) {alpha : ℂ} (hα : alpha.im ≠ 0) {beta : ℝ} (hβ : beta ≠ 0) (S F : Field n N) :
    Represents m mag S (prepare m mag alpha beta S F) := by
  refine ⟨hα, hβ, ?_⟩
  rw [prepare_eq m mag hα]
  rfl

namespace Represents

variable (h : Represents m mag S s)
include h

theorem magnetic : s.magnetic = mag := by rw [h.eq]; rfl
theorem source : s.source = fun c x => S c x * factor s.alpha s.beta := by conv_lhs => rw [h.eq]
                                                                           rfl
theorem chiEE : s.chiEE = fun x => factor s.alpha s.beta • m.epsilonPrime x - (s.alpha * I / (s.alpha.im : ℂ)) • (1 : Matrix (Fin n) (Fin n) ℂ) := by
  conv_lhs => rw [h.eq]
  rfl
theorem chiEH : s.chiEH = fun x => factor s.alpha s.beta • m.chiEHBeta x := by
  conv_lhs => rw [h.eq]
  rfl
theorem chiHE : s.chiHE = fun x => factor s.alpha s.beta • m.chiHEBeta x := by
  conv_lhs => rw [h.eq]
  rfl
theorem chiHH : s.chiHH = fun x => (I / (s.alpha.im : ℂ)) • (1 - (1 / (s.beta : ℂ)) • m.muInv x) := by
  conv_lhs => rw [h.eq]
  rfl

theorem getSource : getSource s = S := by
  have h1 := ofReal_ne h.alpha_ne
  have h2 := ofReal_ne h.beta_ne
  funext c x
  simp only [Solver.getSource, h.source, factor]
  field_simp

theorem with_field (F : Field n N) (p : WithTop ℝ) (i : ℤ) (r : Option (WithTop ℝ)) :
    Represents m mag S { s with field := F, prevNorm := p, iteration := i, residue := r } := by
  refine ⟨h.alpha_ne, h.beta_ne, ?_⟩
  have := h.eq
  obtain ⟨f, so, al, be, c1, c2, c3, c4, mg, p', it, re⟩ := s
  simp only [prepared, State.mk.injEq] at this ⊢
  tauto

theorem setE (k0 : ℝ) (E : Field n N) : Represents m mag S (setE k0 s E) := h.with_field _ _ _ _

theorem setSource (S' : Field n N) : Represents m mag S' (setSource s S') := by
  refine ⟨h.alpha_ne, h.beta_ne, ?_⟩
  have := h.eq
  obtain ⟨f, so, al, be, c1, c2, c3, c4, mg, p', it, re⟩ := s
  simp only [prepared, State.mk.injEq, Solver.setSource] at this ⊢
  tauto

theorem updateOperators {alpha : ℂ} (hα : alpha.im ≠ 0) : Represents m mag S (updateOperators s alpha) := by
  refine ⟨hα, h.beta_ne, ?_⟩
  have key := updateOperators_prepared m mag h.alpha_ne alpha s.beta S s.field
  have e : Solver.updateOperators s alpha = { Solver.updateOperators (prepared m mag s.alpha s.beta S s.field) alpha with
      prevNorm := s.prevNorm, iteration := s.iteration, residue := s.residue } := by
    conv_lhs => rw [h.eq]
    rfl
  rw [e, key]
  rfl

theorem step (kind : Kind d n) (k : Fin d → Idx N → ℝ) (h0 : ((0 : ℝ) : WithTop ℝ) ≤ s.prevNorm) {t : State n N} (ht : step kind k s = .ok t) :
    Represents m mag S t := by
  have hp : s.prevNorm ≠ ((0 : ℝ) : WithTop ℝ) := by
    intro hp
    rw [(step_error_iff kind k s h0 .zeroDivision).2 ⟨hp, rfl⟩] at ht
    exact absurd ht (by simp)
  rw [step_eq kind k s hp h0, Except.ok.injEq] at ht
  split_ifs at ht
  · rw [← ht]
    exact h.with_field _ _ _ _
  · rw [← ht]
    refine (h.with_field s.field s.prevNorm (s.iteration + 1) none).updateOperators ?_
    have : (increased s.alpha).im = 1.5 * s.alpha.im := by simp [increased]
    rw [this]
    exact mul_ne_zero (by norm_num) h.alpha_ne

end Represents

/-- The source after a history: the last one that has been assigned. -/
def lastSource (S : Field n N) : List (Op n N) → Field n N
  | [] => S
  | .setSource S' :: ops => lastSource S' ops
  | _ :: ops => lastSource S ops

/-- In every history of iterations, new iterators, queries and assignments, the stored arrays represent the medium of the constructor and the last source. -/
theorem represents_history (kind : Kind d n) (k : Fin d → Idx N → ℝ) (k0 : ℝ) (h : Represents m mag S s) (h0 : ((0 : ℝ) : WithTop ℝ) ≤ s.prevNorm)
    (ops : List (Op n N)) :
    Represents m mag (lastSource S ops) (ops.foldl (fun s op => op.apply kind k k0 s) s) := by
  induction ops generalizing S s with
  | nil => exact h
  | cons op ops ih =>
    rw [List.foldl_cons]
    cases op with
    | setE E => exact ih (h.setE k0 E) le_top
    | setSource S' => exact ih (h.setSource S') le_top
    | restart => exact ih (h.with_field s.field s.prevNorm 0 s.residue) h0
    | residue =>
      simp only [Op.apply]
      have hst := relativeResidue_state s
      refine ih (s := (relativeResidue s).2) ?_ ?_
      · rw [hst]; exact h.with_field s.field s.prevNorm s.iteration _
      · rw [hst]; exact h0
    | iterate =>
      simp only [Op.apply]
      split
      · rename_i t ht
        exact ih (h.step kind k h0 ht) (step_prevNorm kind k s t h0 ht).1
      · exact ih (h.with_field s.field s.prevNorm _ _) h0

end Verif.Solver
